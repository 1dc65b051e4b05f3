import Verif.Model.PubSubLocks
import Verif.Spec.PubSubThreads
import Verif.Props.Fair

/-! # C165, C166: the locks of publish/subscribe -/

namespace Hop

open Spec

/-! ## Entries -/

theorem PubSub.setSlot_self (m : PubSub) (c : Slot) (v : Option (List c.Item)) : (m.setSlot c v).slot c = v := by
  cases c <;> exact if_pos rfl

theorem PubSub.setSlot_ne (m : PubSub) {c c' : Slot} (v : Option (List c.Item)) (h : c' ≠ c) : (m.setSlot c v).slot c' = m.slot c' := by
  cases c with
  | session s =>
    cases c' with
    | session s' => exact if_neg fun e => h (by rw [e])
    | key k' => rfl
  | key k =>
    cases c' with
    | session s' => rfl
    | key k' => exact if_neg fun e => h (by rw [e])

theorem PubSub.setSlot_made (m : PubSub) (c : Slot) (v : Option (List c.Item)) : (m.setSlot c v).made = m.made := by cases c <;> rfl

theorem PubSub.setSlot_closed (m : PubSub) (c : Slot) (v : Option (List c.Item)) : (m.setSlot c v).closed = m.closed := by cases c <;> rfl

theorem PubSub.slot_ext {m m' : PubSub} (h : ∀ c, m.slot c = m'.slot c) (h1 : m.made = m'.made) (h2 : m.closed = m'.closed) : m = m' := by
  obtain ⟨k, s, d, l⟩ := m
  obtain ⟨k', s', d', l'⟩ := m'
  have e1 : k = k' := funext fun x => h (.key x)
  have e2 : s = s' := funext fun x => h (.session x)
  simp only at h1 h2
  rw [e1, e2, h1, h2]

theorem lookup_find (l : List (Bytes × Nat)) (k : Bytes) : l.lookup k = (l.find? fun e => decide (e.1 = k)).map (·.2) := by
  induction l with
  | nil => rfl
  | cons e l ih =>
    obtain ⟨a, b⟩ := e
    by_cases h : k = a
    · subst h; simp [List.lookup]
    · have h' : ¬ a = k := fun e => h e.symm
      simp [List.lookup, h', ih, beq_eq_false_iff_ne.mpr h]

theorem contains_find (l : List UInt32) (s : UInt32) : l.contains s = (l.find? fun e => decide (e = s)).isSome := by
  induction l with
  | nil => rfl
  | cons e l ih =>
    by_cases h : s = e
    · subst h; simp
    · have h' : ¬ e = s := fun e => h e.symm
      simp only [List.contains_cons, beq_eq_false_iff_ne.mpr h, Bool.false_or, ih, List.find?_cons, decide_eq_false h']

theorem Slot.find_filter (c : Slot) (i : c.Idx) (q : c.Item → Bool) (l : List c.Item) (h : ∀ e, c.idx e = i → q e = true) :
    c.find i (l.filter q) = c.find i l := by
  unfold Slot.find
  rw [List.find?_filter]
  congr 1
  funext e
  by_cases he : c.idx e = i
  · simp [he, h e he]
  · simp [he]

theorem Slot.find_without (c : Slot) {i i' : c.Idx} (l : List c.Item) (h : i' ≠ i) : c.find i' (c.without i l) = c.find i' l :=
  c.find_filter i' _ l fun e he => by rw [he]; exact decide_eq_true h

theorem Slot.filter_without (c : Slot) (i : c.Idx) (q : c.Item → Bool) (l : List c.Item) (h : ∀ e, q e = true → c.idx e ≠ i) :
    (c.without i l).filter q = l.filter q := by
  unfold Slot.without
  rw [List.filter_filter]
  refine List.filter_congr fun e _ => ?_
  cases hq : q e with
  | false => rfl
  | true => simp [h e hq]

/-! ## The steps of `PubSubThreads`, by entries -/

/-- The session whose lock a step waits for. -/
def SubThread.asks (t : SubThread) (c : Slot) : Prop :=
  t.need = some (.whole c) ∨ (∃ i, t.need = some (.remove c i)) ∨ (∃ i, t.need = some (.look c i))

theorem SubThread.step_free {t : SubThread} {c : Slot} (h : t.asks c) (free : UInt32 → Bool) (hf : ∀ s, c = .session s → free s = true)
    (m : PubSub) : t.step free m = t.step (fun _ => true) m := by
  unfold SubThread.asks at h
  cases t <;> simp only [SubThread.need, Option.some.injEq, SubNeed.whole.injEq, SubNeed.remove.injEq, SubNeed.look.injEq, reduceCtorEq, exists_false, or_false, false_or] at h
  all_goals first
    | exact h.elim
    | rfl
    | skip
  · subst h; simp only [SubThread.step, hf _ rfl]
  · obtain ⟨i, rfl, -⟩ := h; simp only [SubThread.step, hf _ rfl]
  · obtain ⟨i, rfl, -⟩ := h; simp only [SubThread.step, hf _ rfl]
  · subst h; simp only [SubThread.step, hf _ rfl]

/-- What is done under an exclusive lock depends on this entry only, and changes no other. -/
theorem SubThread.step_whole {t : SubThread} {c : Slot} (h : t.need = some (.whole c)) (o : Option (List c.Item)) (d : Nat) :
    ∃ (t' : SubThread) (v : Option (List c.Item)) (d' : Nat), (∀ c' ∈ t'.keeps, c' = c) ∧
      ∀ m : PubSub, m.slot c = o → m.made = d → t.step (fun _ => true) m = (t', { m.setSlot c v with made := d' }) := by
  cases t with
  | subscribe k s =>
    simp only [SubThread.need, Option.some.injEq, SubNeed.whole.injEq] at h
    subst h
    by_cases hl : (o.getD []).lookup k = none
    · refine ⟨.subscribing k s d, some (o.getD [] ++ [(k, d)]), d + 1, by simp [SubThread.keeps, SubThread.holds], ?_⟩
      intro m hm hd
      have hm : m.sessions s = o := hm
      simp only [SubThread.step, PubSub.subscribeSession, hm, hl, hd, if_true]
      rfl
    · refine ⟨.subscribed none, some (o.getD []), d, by simp [SubThread.keeps, SubThread.holds], ?_⟩
      intro m hm hd
      have hm : m.sessions s = o := hm
      obtain ⟨x, hx⟩ := Option.ne_none_iff_exists'.mp hl
      simp only [SubThread.step, PubSub.subscribeSession, hm, hx, if_true]
      simp only [PubSub.setSlot, ← hd]
  | subscribing k s x =>
    simp only [SubThread.need, Option.some.injEq, SubNeed.whole.injEq] at h
    subst h
    cases o with
    | none =>
      refine ⟨.subscribed (some x), some [s], d, by simp [SubThread.keeps, SubThread.holds], ?_⟩
      intro m hm hd
      have hm : m.keys k = none := hm
      simp only [SubThread.step, PubSub.subscribeKey, hm]
      simp only [PubSub.setSlot, ← hd]
    | some l =>
      refine ⟨.subscribed none, some l, d, by simp [SubThread.keeps, SubThread.holds], ?_⟩
      intro m hm hd
      have hm : m.keys k = some l := hm
      have e : (fun i => if i = k then some l else m.keys i) = m.keys := by
        funext i
        by_cases h : i = k
        · subst h; simp [hm]
        · simp [h]
      simp only [SubThread.step, PubSub.subscribeKey, hm]
      simp only [PubSub.setSlot, ← hd, e]
  | removeSession s =>
    simp only [SubThread.need, Option.some.injEq, SubNeed.whole.injEq] at h
    subst h
    cases o with
    | none =>
      refine ⟨.sessionRemoved false, none, d, by simp [SubThread.keeps, SubThread.holds], ?_⟩
      intro m hm hd
      have hm : m.sessions s = none := hm
      have e : (fun i => if i = s then none else m.sessions i) = m.sessions := by
        funext i
        by_cases h : i = s
        · subst h; simp [hm]
        · simp [h]
      simp only [SubThread.step, hm, if_true]
      simp only [PubSub.setSlot, ← hd, e]
    | some l =>
      refine ⟨.closing (l.map (·.2)), none, d, by simp [SubThread.keeps, SubThread.holds], ?_⟩
      intro m hm hd
      have hm : m.sessions s = some l := hm
      simp only [SubThread.step, hm, if_true]
      simp only [PubSub.setSlot, ← hd]
  | _ => simp [SubThread.need] at h

/-- What is done through the guard of an entry. -/
theorem SubThread.step_remove {t : SubThread} {c : Slot} {i : c.Idx} (h : t.need = some (.remove c i)) (m : PubSub) :
    t.step (fun _ => true) m = match m.slot c with
      | none => (t.given c none, m)
      | some l => (t.given c (c.find i l), m.setSlot c (some (c.without i l))) := by
  cases t with
  | unsubscribe k s =>
    simp only [SubThread.need, Option.some.injEq, SubNeed.remove.injEq] at h
    obtain ⟨rfl, h⟩ := h
    cases h
    simp only [SubThread.step, PubSub.unsubscribeKey, PubSub.slot]
    cases m.keys k with
    | none => rfl
    | some l =>
      simp only [SubThread.given, Slot.find, Slot.idx, contains_find, PubSub.setSlot, Slot.without]
      congr 3
      funext k'
      congr 2
      refine List.filter_congr fun e _ => ?_
      by_cases he : e = s <;> simp [he]
  | unsubscribing k s b =>
    simp only [SubThread.need, Option.some.injEq, SubNeed.remove.injEq] at h
    obtain ⟨rfl, h⟩ := h
    cases h
    simp only [SubThread.step, PubSub.unsubscribeSession, PubSub.slot, if_true]
    cases m.sessions s with
    | none => rfl
    | some l =>
      simp only [SubThread.given, Slot.find, Slot.idx, lookup_find, Option.isSome_map, PubSub.setSlot, Slot.without]
      congr 3
      funext k'
      congr 2
      refine List.filter_congr fun e _ => ?_
      by_cases he : e.1 = k <;> simp [he]
  | _ => simp [SubThread.need] at h

theorem SubThread.step_look {t : SubThread} {c : Slot} {i : c.Idx} (h : t.need = some (.look c i)) (m : PubSub) :
    t.step (fun _ => true) m = match m.slot c with
      | none => (t.given c none, m)
      | some l => (t.given c (c.find i l), m) := by
  cases t with
  | get k s =>
    simp only [SubThread.need, Option.some.injEq, SubNeed.look.injEq] at h
    obtain ⟨rfl, h⟩ := h
    cases h
    simp only [SubThread.step, PubSub.get, PubSub.slot, if_true]
    cases m.sessions s with
    | none => rfl
    | some l =>
      simp only [SubThread.given, Slot.find, Slot.idx, lookup_find]
      rfl
  | _ => simp [SubThread.need] at h

theorem SubThread.holds_of_inner {t : SubThread} {c : Slot} {i : c.Idx} (h : t.need = some (.remove c i) ∨ t.need = some (.look c i)) :
    t.holds = none := by
  cases t <;> simp [SubThread.need, SubThread.holds] at h ⊢

theorem SubThread.given_holds {t : SubThread} {c : Slot} {i : c.Idx} (h : t.need = some (.remove c i) ∨ t.need = some (.look c i))
    (x : Option c.Item) : (t.given c x).holds = none := by
  cases t <;> simp only [SubThread.need, Option.some.injEq, SubNeed.remove.injEq, SubNeed.look.injEq, reduceCtorEq, or_self, or_false, false_or] at h
  all_goals
    obtain ⟨rfl, -⟩ := h
    rfl

/-! ## What holds at every moment -/

/-- The entries a thread has a shared guard of. -/
def PThread.shares : PThread → List Slot
  | .sharing _ c _ => [c]
  | .removing _ c _ _ => [c]
  | .looking _ c _ _ => [c]
  | .leaving _ c => [c]
  | _ => []

/-- A thread is within an access that it needs. -/
def PThread.sound : PThread → Prop
  | .ready _ => True
  | .owning t c _ => t.need = some (.whole c)
  | .sharing t c i => t.need = some (.remove c i) ∨ t.need = some (.look c i)
  | .removing t c i _ => t.need = some (.remove c i)
  | .looking t c i _ => t.need = some (.look c i)
  | .leaving t _ => t.holds = none

/-- Locks exclude each other. -/
structure SubLockInv (L : SubLocks) (p : PPool) : Prop where
  apart : ∀ (n j : Nat) t t' c c', n ≠ j → p.threads[n]? = some t → p.threads[j]? = some t' → c ∈ t.owns → c' ∈ t'.holds → L.of c' ≠ L.of c
  inner : ∀ (n j : Nat) t t' c i i', n ≠ j → p.threads[n]? = some t → p.threads[j]? = some t' → t.ownsInner = some ⟨c, i⟩ →
    t'.holdsInner = some ⟨c, i'⟩ → L.inner c i' ≠ L.inner c i
  present : ∀ (n : Nat) t c, p.threads[n]? = some t → c ∈ t.shares → p.mgr.slot c ≠ none
  sound : ∀ (n : Nat) t, p.threads[n]? = some t → t.sound

theorem PThread.holds_of_owns {t : PThread} {c : Slot} (h : c ∈ t.owns) : c ∈ t.holds := by
  cases t <;> first | exact h | cases h

theorem PThread.holds_of_shares {t : PThread} {c : Slot} (h : c ∈ t.shares) : c ∈ t.holds := by
  cases t <;> first | exact h | cases h

theorem PThread.holdsInner_of_ownsInner {t : PThread} {x : (c : Slot) × c.Idx} (h : t.ownsInner = some x) : t.holdsInner = some x := by
  cases t <;> first | exact h | cases h

theorem PThread.holds_of_holdsInner {t : PThread} {c : Slot} {i : c.Idx} (h : t.holdsInner = some ⟨c, i⟩) : c ∈ t.shares := by
  cases t <;> simp only [PThread.holdsInner, reduceCtorEq, Option.some.injEq] at h
  all_goals
    cases h
    exact List.mem_singleton.mpr rfl

/-- A thread goes on to `t1`, the entries being as in `m`. -/
theorem SubLockInv.set {L : SubLocks} {p : PPool} (h : SubLockInv L p) {n : Nat} {t0 t1 : PThread} (ht : p.threads[n]? = some t0) (m : PubSub)
    (hown : ∀ c ∈ t1.owns, c ∈ t0.owns ∨ ∀ (j : Nat) t', p.threads[j]? = some t' → ∀ c' ∈ t'.holds, L.of c' ≠ L.of c)
    (hhold : ∀ c ∈ t1.holds, c ∈ t0.holds ∨ ∀ (j : Nat) t', p.threads[j]? = some t' → ∀ c' ∈ t'.owns, L.of c' ≠ L.of c)
    (hoi : ∀ c i, t1.ownsInner = some ⟨c, i⟩ → t0.ownsInner = some ⟨c, i⟩ ∨
      ∀ (j : Nat) t' i', p.threads[j]? = some t' → t'.holdsInner = some ⟨c, i'⟩ → L.inner c i' ≠ L.inner c i)
    (hhi : ∀ c i, t1.holdsInner = some ⟨c, i⟩ → t0.holdsInner = some ⟨c, i⟩ ∨
      ∀ (j : Nat) t' i', p.threads[j]? = some t' → t'.ownsInner = some ⟨c, i'⟩ → L.inner c i' ≠ L.inner c i)
    (hpres : ∀ c ∈ t1.shares, m.slot c ≠ none)
    (hkeep : ∀ (j : Nat) t' c, j ≠ n → p.threads[j]? = some t' → c ∈ t'.shares → p.mgr.slot c ≠ none → m.slot c ≠ none)
    (hs : t1.sound) : SubLockInv L { threads := p.threads.set n t1, mgr := m } := by
  refine ⟨?_, ?_, ?_, ?_⟩
  · intro a b t t' c c' hne ha hb hc hc'
    rcases getElem?_set_cases ha with ⟨rfl, rfl⟩ | ⟨ea, ga⟩
    · rcases getElem?_set_cases hb with ⟨e, -⟩ | ⟨eb, gb⟩
      · exact absurd e.symm hne
      · rcases hown c hc with h1 | h1
        · exact h.apart a b t0 t' c c' hne ht gb h1 hc'
        · exact h1 b t' gb c' hc'
    · rcases getElem?_set_cases hb with ⟨rfl, rfl⟩ | ⟨eb, gb⟩
      · rcases hhold c' hc' with h1 | h1
        · exact h.apart a b t t0 c c' hne ga ht hc h1
        · exact fun e => h1 a t ga c hc e.symm
      · exact h.apart a b t t' c c' hne ga gb hc hc'
  · intro a b t t' c i i' hne ha hb hc hc'
    rcases getElem?_set_cases ha with ⟨rfl, rfl⟩ | ⟨ea, ga⟩
    · rcases getElem?_set_cases hb with ⟨e, -⟩ | ⟨eb, gb⟩
      · exact absurd e.symm hne
      · rcases hoi c i hc with h1 | h1
        · exact h.inner a b t0 t' c i i' hne ht gb h1 hc'
        · exact h1 b t' i' gb hc'
    · rcases getElem?_set_cases hb with ⟨rfl, rfl⟩ | ⟨eb, gb⟩
      · rcases hhi c i' hc' with h1 | h1
        · exact h.inner a b t t0 c i i' hne ga ht hc h1
        · exact fun e => h1 a t i ga hc e.symm
      · exact h.inner a b t t' c i i' hne ga gb hc hc'
  · intro a t c ha hc
    rcases getElem?_set_cases ha with ⟨rfl, rfl⟩ | ⟨ea, ga⟩
    · exact hpres c hc
    · exact hkeep a t c ea ga hc (h.present a t c ga hc)
  · intro a t ha
    rcases getElem?_set_cases ha with ⟨rfl, rfl⟩ | ⟨ea, ga⟩
    · exact hs
    · exact h.sound a t ga

theorem SubThread.keeps_nil {t : SubThread} (h : t.holds = none) : t.keeps = [] := by simp [SubThread.keeps, h]

theorem SubThread.closing_keeps (xs : List Nat) (free : UInt32 → Bool) (m : PubSub) : ((SubThread.closing xs).step free m).1.keeps = [] := by
  cases xs <;> rfl

theorem SubThread.closing_slot (xs : List Nat) (free : UInt32 → Bool) (m : PubSub) (c : Slot) :
    ((SubThread.closing xs).step free m).2.slot c = m.slot c := by
  cases xs <;> cases c <;> rfl

theorem SubLockInv.step {L : SubLocks} {p p' : PPool} (h : SubLockInv L p) (hs : PStep L p p') : SubLockInv L p' := by
  cases hs with
  | @lock n t c ht hn hno =>
    refine h.set ht p.mgr ?_ ?_ (fun _ _ e => by cases e) (fun _ _ e => by cases e) (fun _ e => by cases e) (fun _ _ _ _ _ _ e => e) hn
    · intro c' hc'
      rcases List.mem_cons.mp hc' with rfl | hc'
      · exact .inr hno
      · exact .inl hc'
    · intro c' hc'
      rcases List.mem_cons.mp hc' with rfl | hc'
      · exact .inr fun j t' hj c1 h1 => hno j t' hj c1 (PThread.holds_of_owns h1)
      · exact .inl hc'
  | @draft n t c o v ht =>
    refine ⟨h.apart, h.inner, ?_, h.sound⟩
    intro j t' c' hj hc'
    have hne : n ≠ j := by rintro rfl; rw [ht] at hj; cases hj; cases hc'
    have : c' ≠ c := fun e => h.apart n j _ _ c c' hne ht hj (List.mem_cons_self ..) (PThread.holds_of_shares hc') (by rw [e])
    rw [PubSub.setSlot_ne _ _ this]
    exact h.present j t' c' hj hc'
  | @commit n t c o ht =>
    obtain ⟨t', v, d', hk, he⟩ := SubThread.step_whole (h.sound n _ ht) o (p.mgr.setSlot c o).made
    have he := he _ (PubSub.setSlot_self _ _ _) rfl
    rw [he]
    refine h.set ht _ ?_ ?_ (fun _ _ e => by cases e) (fun _ _ e => by cases e) (fun _ e => by cases e) ?_ trivial
    · intro c' hc'
      rw [hk c' hc']
      exact .inl (List.mem_cons_self ..)
    · intro c' hc'
      rw [hk c' hc']
      exact .inl (List.mem_cons_self ..)
    · intro j t' c' hj htj hc' hp
      have : c' ≠ c := fun e => h.apart n j _ _ c c' (Ne.symm hj) ht htj (List.mem_cons_self ..) (PThread.holds_of_shares hc') (by rw [e])
      show ((p.mgr.setSlot c o).setSlot c v).slot c' ≠ none
      rw [PubSub.setSlot_ne _ _ this, PubSub.setSlot_ne _ _ this]
      exact hp
  | @miss n t c i ht hn hno hm =>
    have hk : (PThread.ready (t.given c none)).owns = [] := SubThread.keeps_nil (SubThread.given_holds hn none)
    have hk' : (PThread.ready (t.given c none)).holds = [] := SubThread.keeps_nil (SubThread.given_holds hn none)
    exact h.set ht p.mgr (by rw [hk]; exact fun _ e => by cases e) (by rw [hk']; exact fun _ e => by cases e) (fun _ _ e => by cases e)
      (fun _ _ e => by cases e) (fun _ e => by cases e) (fun _ _ _ _ _ _ e => e) trivial
  | @share n t c i ht hn hno hm =>
    refine h.set ht p.mgr (fun _ e => by cases e) ?_ (fun _ _ e => by cases e) (fun _ _ e => by cases e) ?_ (fun _ _ _ _ _ _ e => e) hn
    · intro c' hc'
      obtain rfl := List.mem_singleton.mp hc'
      exact .inr hno
    · intro c' hc'
      obtain rfl := List.mem_singleton.mp hc'
      exact hm
  | @innerLock n t c i ht hn hno =>
    refine h.set ht p.mgr (fun _ e => by cases e) (fun c' hc' => .inl hc') ?_ ?_ (fun c' hc' => h.present n _ c' ht hc') (fun _ _ _ _ _ _ e => e) hn
    · intro c' i' e
      cases e
      exact .inr hno
    · intro c' i' e
      cases e
      exact .inr fun j t' i1 hj h1 => hno j t' i1 hj (PThread.holdsInner_of_ownsInner h1)
  | @innerDraft n t c i x l ht hl =>
    refine ⟨h.apart, h.inner, ?_, h.sound⟩
    intro j t' c' hj hc'
    by_cases e : c' = c
    · subst e; rw [PubSub.setSlot_self]; simp
    · rw [PubSub.setSlot_ne _ _ e]
      exact h.present j t' c' hj hc'
  | @innerCommit n t c i x ht =>
    have hp : ∀ c', p.mgr.slot c' ≠ none → (p.mgr.setSlot c (some (c.without i ((p.mgr.slot c).getD [])))).slot c' ≠ none := by
      intro c' h'
      by_cases e : c' = c
      · subst e; rw [PubSub.setSlot_self]; simp
      · rw [PubSub.setSlot_ne _ _ e]; exact h'
    exact h.set ht _ (fun _ e => by cases e) (fun c' hc' => .inl hc') (fun _ _ e => by cases e) (fun _ _ e => by cases e)
      (fun c' hc' => hp c' (h.present n _ c' ht hc')) (fun _ _ c' _ _ _ e => hp c' e) (SubThread.given_holds (.inl (h.sound n _ ht)) _)
  | @innerShare n t c i ht hn hno =>
    refine h.set ht p.mgr (fun _ e => by cases e) (fun c' hc' => .inl hc') (fun _ _ e => by cases e) ?_
      (fun c' hc' => h.present n _ c' ht hc') (fun _ _ _ _ _ _ e => e) hn
    intro c' i' e
    cases e
    exact .inr hno
  | @innerRelease n t c i x ht =>
    exact h.set ht p.mgr (fun _ e => by cases e) (fun c' hc' => .inl hc') (fun _ _ e => by cases e) (fun _ _ e => by cases e)
      (fun c' hc' => h.present n _ c' ht hc') (fun _ _ _ _ _ _ e => e) (SubThread.given_holds (.inr (h.sound n _ ht)) _)
  | @release n t c ht =>
    have hk : (PThread.ready t).owns = [] := SubThread.keeps_nil (h.sound n _ ht)
    have hk' : (PThread.ready t).holds = [] := SubThread.keeps_nil (h.sound n _ ht)
    exact h.set ht p.mgr (by rw [hk]; exact fun _ e => by cases e) (by rw [hk']; exact fun _ e => by cases e) (fun _ _ e => by cases e)
      (fun _ _ e => by cases e) (fun _ e => by cases e) (fun _ _ _ _ _ _ e => e) trivial
  | @close n xs ht =>
    have hk : (PThread.ready ((SubThread.closing xs).step (fun _ => true) p.mgr).1).owns = [] := SubThread.closing_keeps ..
    have hk' : (PThread.ready ((SubThread.closing xs).step (fun _ => true) p.mgr).1).holds = [] := SubThread.closing_keeps ..
    exact h.set ht _ (by rw [hk]; exact fun _ e => by cases e) (by rw [hk']; exact fun _ e => by cases e) (fun _ _ e => by cases e)
      (fun _ _ e => by cases e) (fun _ e => by cases e) (fun _ _ c _ _ _ e => by rw [SubThread.closing_slot]; exact e) trivial

/-! ## Every access is one step -/

/-- Where a thread is, if a removal counts from its end and a look from its beginning. -/
def PThread.rest : PThread → SubThread
  | .ready t => t
  | .owning t _ _ => t
  | .sharing t _ _ => t
  | .removing t _ _ _ => t
  | .looking t c _ x => t.given c x
  | .leaving t _ => t

/-- Some thread is just removing item `i` of the inner map at `c`. -/
def PPool.inWork (p : PPool) (c : Slot) (i : c.Idx) : Prop := ∃ (n : Nat) (t : PThread), p.threads[n]? = some t ∧ t.ownsInner = some ⟨c, i⟩

open Classical in
/-- An item that no thread is just removing. -/
noncomputable def PPool.settled (p : PPool) (c : Slot) (e : c.Item) : Bool := decide (¬ p.inWork c (c.idx e))

open Classical in
theorem PPool.settled_iff {p : PPool} {c : Slot} {e : c.Item} : p.settled c e = true ↔ ¬ p.inWork c (c.idx e) := by
  unfold PPool.settled
  exact decide_eq_true_iff

/-- A pool with locks and one without are at corresponding points. -/
structure SubCovers (p : PPool) (a : SubPool) : Prop where
  threads : a.threads = p.threads.map PThread.rest
  made : a.mgr.made = p.mgr.made
  closed : a.mgr.closed = p.mgr.closed
  slots : ∀ c, (∀ (n : Nat) t o, p.threads[n]? ≠ some (.owning t c o)) →
    (a.mgr.slot c).map (List.filter (p.settled c)) = (p.mgr.slot c).map (List.filter (p.settled c))
  hidden : ∀ (n : Nat) t c o, p.threads[n]? = some (.owning t c o) → a.mgr.slot c = o
  found : ∀ (n : Nat) t c i x, p.threads[n]? = some (.removing t c i x) → c.find i ((a.mgr.slot c).getD []) = x
  seen : ∀ (n : Nat) t c i x, p.threads[n]? = some (.looking t c i x) → c.find i ((p.mgr.slot c).getD []) = x

theorem PPool.inWork_set {p : PPool} {n : Nat} {t0 t1 : PThread} {m : PubSub} (ht : p.threads[n]? = some t0)
    (h : t1.ownsInner = t0.ownsInner) (c : Slot) (i : c.Idx) :
    ({ threads := p.threads.set n t1, mgr := m } : PPool).inWork c i ↔ p.inWork c i := by
  constructor
  · rintro ⟨j, t, hj, hi⟩
    rcases getElem?_set_cases hj with ⟨rfl, rfl⟩ | ⟨e, g⟩
    · exact ⟨j, t0, ht, by rw [← h]; exact hi⟩
    · exact ⟨j, t, g, hi⟩
  · rintro ⟨j, t, hj, hi⟩
    by_cases e : j = n
    · subst e
      rw [ht] at hj
      cases hj
      exact ⟨j, t1, List.getElem?_set_self (List.getElem?_eq_some_iff.mp ht).1, by rw [h]; exact hi⟩
    · exact ⟨j, t, by show (p.threads.set n t1)[j]? = _; rw [List.getElem?_set_ne (fun e' => e e'.symm)]; exact hj, hi⟩

theorem PPool.settled_set {p : PPool} {n : Nat} {t0 t1 : PThread} {m : PubSub} (ht : p.threads[n]? = some t0)
    (h : t1.ownsInner = t0.ownsInner) (c : Slot) :
    ({ threads := p.threads.set n t1, mgr := m } : PPool).settled c = p.settled c := by
  funext e
  rw [Bool.eq_iff_iff, PPool.settled_iff, PPool.settled_iff, PPool.inWork_set ht h]

theorem set_map_at {l : List PThread} {n : Nat} {t t' : PThread} (h : l[n]? = some t) (hr : t'.rest = t.rest) :
    (l.set n t').map PThread.rest = l.map PThread.rest := by
  rw [List.map_set, hr]
  obtain ⟨h1, h2⟩ := List.getElem?_eq_some_iff.mp h
  have : (l.map PThread.rest)[n]'(by simpa using h1) = t.rest := by simp [h2]
  rw [← this]
  exact List.set_getElem_self _

theorem SubPool.stepAt_at {shard : UInt32 → Nat} {a : SubPool} {n : Nat} {t : SubThread} (h : a.threads[n]? = some t) :
    a.stepAt shard n = { threads := a.threads.set n (t.step (a.free shard) a.mgr).1, mgr := (t.step (a.free shard) a.mgr).2 } := by
  unfold SubPool.stepAt
  rw [h]

theorem PThread.owns_of_rest {t : PThread} (hs : t.sound) {s : UInt32} (h : t.rest.holds = some s) : .session s ∈ t.owns := by
  cases t with
  | ready t => simp only [PThread.rest] at h; simp [PThread.owns, SubThread.keeps, h]
  | owning t c o => simp only [PThread.rest] at h; simp [PThread.owns, SubThread.keeps, h]
  | sharing t c i => rw [show (PThread.sharing t c i).rest = t from rfl, SubThread.holds_of_inner hs] at h; cases h
  | removing t c i x => rw [show (PThread.removing t c i x).rest = t from rfl, SubThread.holds_of_inner (.inl hs)] at h; cases h
  | looking t c i x => rw [show (PThread.looking t c i x).rest = t.given c x from rfl, SubThread.given_holds (.inr hs)] at h; cases h
  | leaving t c => rw [show (PThread.leaving t c).rest = t from rfl, show t.holds = none from hs] at h; cases h

theorem SubCovers.free {L : SubLocks} {p : PPool} {a : SubPool} (h : SubCovers p a) (hi : SubLockInv L p) (c : Slot)
    (hno : ∀ (j : Nat) t', p.threads[j]? = some t' → ∀ c' ∈ t'.owns, L.of c' ≠ L.of c) (s : UInt32) (hc : c = .session s) :
    a.free L.session s = true := by
  subst hc
  unfold SubPool.free
  rw [h.threads, List.all_eq_true]
  intro t ht
  obtain ⟨t', ht', rfl⟩ := List.mem_map.mp ht
  obtain ⟨j, hj⟩ := List.getElem?_of_mem ht'
  cases hh : t'.rest.holds with
  | none => rfl
  | some s' =>
    have := hno j t' hj _ (PThread.owns_of_rest (hi.sound j t' hj) hh)
    simp only [bne_iff_ne, ne_eq]
    intro e
    exact this (by simp [SubLocks.of, e])

/-- An entry that nobody else has a lock of is the same with and without locks. -/
theorem SubCovers.same {p : PPool} {a : SubPool} (h : SubCovers p a) (c : Slot) (hno : ∀ (j : Nat) t', p.threads[j]? = some t' →
    (∀ t o, t' ≠ .owning t c o) ∧ ∀ i, t'.ownsInner ≠ some ⟨c, i⟩) : a.mgr.slot c = p.mgr.slot c := by
  have h1 := h.slots c fun n t o hn => (hno n _ hn).1 t o rfl
  have h2 : p.settled c = fun _ => true := by
    funext e
    refine PPool.settled_iff.mpr ?_
    rintro ⟨n, t, hn, ht⟩
    exact (hno n t hn).2 _ ht
  rw [h2] at h1
  have h3 : (List.filter fun _ : c.Item => true) = id := by funext l; simp
  rw [h3] at h1
  simpa using h1

/-- What is found at an item that nobody is just removing. -/
theorem SubCovers.find {p : PPool} {a : SubPool} (h : SubCovers p a) (c : Slot) (i : c.Idx)
    (hno : ∀ (n : Nat) t o, p.threads[n]? ≠ some (.owning t c o)) (hi : ¬ p.inWork c i) :
    c.find i ((a.mgr.slot c).getD []) = c.find i ((p.mgr.slot c).getD []) := by
  have h1 := h.slots c hno
  have h2 : ∀ e, c.idx e = i → p.settled c e = true := by
    intro e he
    exact PPool.settled_iff.mpr (by rw [he]; exact hi)
  cases ha : a.mgr.slot c with
  | none =>
    cases hp : p.mgr.slot c with
    | none => rfl
    | some l => rw [ha, hp] at h1; cases h1
  | some l =>
    cases hp : p.mgr.slot c with
    | none => rw [ha, hp] at h1; cases h1
    | some l' =>
      rw [ha, hp] at h1
      simp only [Option.map_some, Option.some.injEq] at h1
      show c.find i l = c.find i l'
      rw [← c.find_filter i _ l h2, h1, c.find_filter i _ l' h2]

/-- A step with locks is no step, or one step without. -/
theorem SubCovers.step {L : SubLocks} {p p' : PPool} {a : SubPool} (h : SubCovers p a) (hi : SubLockInv L p) (hs : PStep L p p') :
    SubCovers p' a ∨ ∃ n, SubCovers p' (a.stepAt L.session n) := by
  have hget : ∀ (n : Nat) t, p.threads[n]? = some t → a.threads[n]? = some t.rest := by
    intro n t ht
    rw [h.threads, List.getElem?_map, ht]; rfl
  -- another thread with a shared guard leaves the entry in place
  have hshared : ∀ {n : Nat} {t0 : PThread} {c : Slot}, p.threads[n]? = some t0 → c ∈ t0.shares →
      ∀ (j : Nat) t o, p.threads[j]? ≠ some (.owning t c o) := by
    intro n t0 c ht hc j t o hj
    have hne : j ≠ n := by rintro rfl; rw [hj] at ht; cases ht; cases hc
    exact hi.apart j n _ _ c c hne hj ht (List.mem_cons_self ..) (PThread.holds_of_shares hc) rfl
  have howner : ∀ {n : Nat} {t0 t1 : PThread} {m : PubSub} {c : Slot}, p.threads[n]? = some t0 → (∀ t o, t0 ≠ .owning t c o) →
      (∀ (j : Nat) t o, (({ threads := p.threads.set n t1, mgr := m } : PPool).threads)[j]? ≠ some (.owning t c o)) →
      ∀ (j : Nat) t o, p.threads[j]? ≠ some (.owning t c o) := by
    intro n t0 t1 m c ht h0 h1 j t o hj
    by_cases e : j = n
    · subst e
      rw [ht] at hj
      cases hj
      exact h0 _ _ rfl
    · exact h1 j t o (by show (p.threads.set n t1)[j]? = _; rw [List.getElem?_set_ne (fun e' => e e'.symm)]; exact hj)
  cases hs with
  | @lock n t c ht hn hno =>
    left
    have hsame := h.same c fun j t' hj => ⟨fun t o e => hno j t' hj c (by rw [e]; exact List.mem_cons_self ..) rfl,
      fun i e => hno j t' hj c (PThread.holds_of_shares (PThread.holds_of_holdsInner (PThread.holdsInner_of_ownsInner e))) rfl⟩
    refine ⟨?_, h.made, h.closed, ?_, ?_, ?_, ?_⟩
    · rw [h.threads]; exact (set_map_at ht (by rfl)).symm
    · intro c' hc'
      rw [PPool.settled_set (t1 := .owning t c (p.mgr.slot c)) ht rfl]
      exact h.slots c' (howner ht (fun _ _ e => by cases e) hc')
    · intro j t' c' o' hj
      rcases getElem?_set_cases hj with ⟨-, e⟩ | ⟨-, hj⟩
      · cases e; exact hsame
      · exact h.hidden j t' c' o' hj
    · intro j t' c' i x hj
      rcases getElem?_set_cases hj with ⟨-, e⟩ | ⟨-, hj⟩
      · cases e
      · exact h.found j t' c' i x hj
    · intro j t' c' i x hj
      rcases getElem?_set_cases hj with ⟨-, e⟩ | ⟨-, hj⟩
      · cases e
      · exact h.seen j t' c' i x hj
  | @draft n t c o v ht =>
    left
    refine ⟨h.threads, h.made.trans (PubSub.setSlot_made ..).symm, h.closed.trans (PubSub.setSlot_closed ..).symm, ?_, h.hidden, h.found, ?_⟩
    · intro c' hc'
      have : c' ≠ c := by rintro rfl; exact hc' n t o ht
      dsimp only
      rw [PubSub.setSlot_ne _ _ this]
      exact h.slots c' hc'
    · intro j t' c' i x hj
      have hne : n ≠ j := by rintro rfl; rw [ht] at hj; cases hj
      have : c' ≠ c := fun e => hi.apart n j _ _ c c' hne ht hj (List.mem_cons_self ..) (List.mem_singleton.mpr rfl) (by rw [e])
      dsimp only
      rw [PubSub.setSlot_ne _ _ this]
      exact h.seen j t' c' i x hj
  | @commit n t c o ht =>
    right
    refine ⟨n, ?_⟩
    have hneed : t.need = some (.whole c) := hi.sound n _ ht
    have hother : ∀ (j : Nat) t' c', j ≠ n → p.threads[j]? = some t' → c' ∈ t'.holds → c' ≠ c := fun j t' c' hj htj hc' e =>
      hi.apart n j _ _ c c' (Ne.symm hj) ht htj (List.mem_cons_self ..) hc' (by rw [e])
    have hfree := SubThread.step_free (.inl hneed) (a.free L.session) (fun s hc => by
      subst hc
      unfold SubPool.free
      rw [h.threads, List.all_eq_true]
      intro u hu
      obtain ⟨t', ht', rfl⟩ := List.mem_map.mp hu
      obtain ⟨j, hj⟩ := List.getElem?_of_mem ht'
      cases hh : t'.rest.holds with
      | none => rfl
      | some s' =>
        by_cases e : j = n
        · subst e
          rw [ht] at hj
          cases hj
          have hh : t.holds = some s' := hh
          cases t <;> simp [SubThread.holds, SubThread.need] at hh hneed
        · have := hi.apart n j _ t' (.session s) (.session s') (Ne.symm e) ht hj (List.mem_cons_self ..)
            (PThread.holds_of_owns (PThread.owns_of_rest (hi.sound j t' hj) hh))
          simp only [bne_iff_ne, ne_eq]
          intro e
          exact this (by simp [SubLocks.of, e])) a.mgr
    obtain ⟨t', v, d', hk, he⟩ := SubThread.step_whole hneed o a.mgr.made
    have ha := he a.mgr (h.hidden n t c o ht) rfl
    have hp := he (p.mgr.setSlot c o) (PubSub.setSlot_self ..) ((PubSub.setSlot_made ..).trans h.made.symm)
    rw [SubPool.stepAt_at (hget n _ ht)]
    simp only [PThread.rest, hfree, ha, hp]
    have hva : ∀ c', ({ a.mgr.setSlot c v with made := d' } : PubSub).slot c' = (a.mgr.setSlot c v).slot c' := by intro c'; cases c' <;> rfl
    have hvp : ∀ c', ({ (p.mgr.setSlot c o).setSlot c v with made := d' } : PubSub).slot c' = ((p.mgr.setSlot c o).setSlot c v).slot c' := by
      intro c'; cases c' <;> rfl
    refine ⟨?_, rfl, ?_, ?_, ?_, ?_, ?_⟩
    · simp only [h.threads, List.map_set]; rfl
    · simp only [PubSub.setSlot_closed, h.closed]
    · intro c' hc'
      rw [PPool.settled_set (t1 := .ready t') ht rfl]
      dsimp only
      rw [hva, hvp]
      by_cases e : c' = c
      · subst e; rw [PubSub.setSlot_self, PubSub.setSlot_self]
      · rw [PubSub.setSlot_ne _ _ e, PubSub.setSlot_ne _ _ e, PubSub.setSlot_ne _ _ e]
        exact h.slots c' (howner ht (fun _ _ e' => by cases e'; exact e rfl) hc')
    · intro j t1 c' o' hj
      rcases getElem?_set_cases hj with ⟨-, e⟩ | ⟨hne, hj⟩
      · cases e
      · dsimp only
        rw [hva, PubSub.setSlot_ne _ _ (hother j _ c' hne hj (List.mem_cons_self ..))]
        exact h.hidden j t1 c' o' hj
    · intro j t1 c' i x hj
      rcases getElem?_set_cases hj with ⟨-, e⟩ | ⟨hne, hj⟩
      · cases e
      · dsimp only
        rw [hva, PubSub.setSlot_ne _ _ (hother j _ c' hne hj (List.mem_singleton.mpr rfl))]
        exact h.found j t1 c' i x hj
    · intro j t1 c' i x hj
      rcases getElem?_set_cases hj with ⟨-, e⟩ | ⟨hne, hj⟩
      · cases e
      · have := hother j _ c' hne hj (List.mem_singleton.mpr rfl)
        dsimp only
        rw [hvp, PubSub.setSlot_ne _ _ this, PubSub.setSlot_ne _ _ this]
        exact h.seen j t1 c' i x hj
  | @miss n t c i ht hn hno hm =>
    right
    refine ⟨n, ?_⟩
    have hnone : a.mgr.slot c = none := by
      have h1 := h.slots c fun j t' o hj => hno j _ hj c (List.mem_cons_self ..) rfl
      rw [hm] at h1
      cases ha : a.mgr.slot c with
      | none => rfl
      | some l => rw [ha] at h1; cases h1
    have hst : t.step (a.free L.session) a.mgr = (t.given c none, a.mgr) := by
      rw [SubThread.step_free (c := c) (by
        rcases hn with hn | hn
        · exact .inr (.inl ⟨i, hn⟩)
        · exact .inr (.inr ⟨i, hn⟩)) _ (h.free hi c hno) a.mgr]
      rcases hn with hn | hn
      · rw [SubThread.step_remove hn, hnone]
      · rw [SubThread.step_look hn, hnone]
    rw [SubPool.stepAt_at (hget n _ ht)]
    simp only [PThread.rest, hst]
    refine ⟨?_, h.made, h.closed, ?_, ?_, ?_, ?_⟩
    · simp only [h.threads, List.map_set]; rfl
    · intro c' hc'
      rw [PPool.settled_set (t1 := .ready (t.given c none)) ht rfl]
      exact h.slots c' (howner ht (fun _ _ e => by cases e) hc')
    · intro j t' c' o' hj
      rcases getElem?_set_cases hj with ⟨-, e⟩ | ⟨-, hj⟩
      · cases e
      · exact h.hidden j t' c' o' hj
    · intro j t' c' i x hj
      rcases getElem?_set_cases hj with ⟨-, e⟩ | ⟨-, hj⟩
      · cases e
      · exact h.found j t' c' i x hj
    · intro j t' c' i x hj
      rcases getElem?_set_cases hj with ⟨-, e⟩ | ⟨-, hj⟩
      · cases e
      · exact h.seen j t' c' i x hj
  | @share n t c i ht hn hno hm =>
    left
    refine ⟨?_, h.made, h.closed, ?_, ?_, ?_, ?_⟩
    · rw [h.threads]; exact (set_map_at ht (by rfl)).symm
    · intro c' hc'
      rw [PPool.settled_set (t1 := .sharing t c i) ht rfl]
      exact h.slots c' (howner ht (fun _ _ e => by cases e) hc')
    · intro j t' c' o' hj
      rcases getElem?_set_cases hj with ⟨-, e⟩ | ⟨-, hj⟩
      · cases e
      · exact h.hidden j t' c' o' hj
    · intro j t' c' i x hj
      rcases getElem?_set_cases hj with ⟨-, e⟩ | ⟨-, hj⟩
      · cases e
      · exact h.found j t' c' i x hj
    · intro j t' c' i x hj
      rcases getElem?_set_cases hj with ⟨-, e⟩ | ⟨-, hj⟩
      · cases e
      · exact h.seen j t' c' i x hj
  | @innerLock n t c i ht hn hno =>
    left
    have hil := (List.getElem?_eq_some_iff.mp ht).1
    have hmem : c ∈ (PThread.sharing t c i).shares := List.mem_singleton.mpr rfl
    have hfind := h.find c i (hshared ht hmem) (by
      rintro ⟨j, t', hj, ho⟩
      exact hno j t' i hj (PThread.holdsInner_of_ownsInner ho) rfl)
    refine ⟨?_, h.made, h.closed, ?_, ?_, ?_, ?_⟩
    · rw [h.threads]; exact (set_map_at ht (by rfl)).symm
    · intro c' hc'
      have h1 := h.slots c' (howner ht (fun _ _ e => by cases e) hc')
      generalize hq : (PPool.settled { p with threads := p.threads.set n (.removing t c i (c.find i ((p.mgr.slot c).getD []))) } c') = q
      have hle : ∀ e, q e = true → p.settled c' e = true := by
        intro e he
        rw [← hq] at he
        refine PPool.settled_iff.mpr fun hw => PPool.settled_iff.mp he ?_
        obtain ⟨j, t', hj, ho⟩ := hw
        have hne : j ≠ n := by rintro rfl; rw [ht] at hj; cases hj; cases ho
        exact ⟨j, t', by show (p.threads.set n _)[j]? = _; rw [List.getElem?_set_ne (fun e' => hne e'.symm)]; exact hj, ho⟩
      have hf : ∀ l : List c'.Item, l.filter q = (l.filter (p.settled c')).filter q := by
        intro l
        rw [List.filter_filter]
        refine List.filter_congr fun e _ => ?_
        cases hqe : q e with
        | false => rfl
        | true => simp [hle e hqe]
      have hf' : (List.filter q) = fun l => (List.filter q) (List.filter (p.settled c') l) := funext hf
      rw [hf', ← Function.comp_def, ← Option.map_map, ← Option.map_map, h1]
    · intro j t' c' o' hj
      rcases getElem?_set_cases hj with ⟨-, e⟩ | ⟨-, hj⟩
      · cases e
      · exact h.hidden j t' c' o' hj
    · intro j t' c' i x hj
      rcases getElem?_set_cases hj with ⟨-, e⟩ | ⟨-, hj⟩
      · cases e; exact hfind
      · exact h.found j t' c' i x hj
    · intro j t' c' i x hj
      rcases getElem?_set_cases hj with ⟨-, e⟩ | ⟨-, hj⟩
      · cases e
      · exact h.seen j t' c' i x hj
  | @innerDraft n t c i x l ht hl =>
    left
    have hmem : c ∈ (PThread.removing t c i x).shares := List.mem_singleton.mpr rfl
    refine ⟨h.threads, h.made.trans (PubSub.setSlot_made ..).symm, h.closed.trans (PubSub.setSlot_closed ..).symm, ?_, h.hidden, h.found, ?_⟩
    · intro c' hc'
      have h1 := h.slots c' hc'
      show (a.mgr.slot c').map (List.filter (p.settled c')) = ((p.mgr.setSlot c (some l)).slot c').map (List.filter (p.settled c'))
      by_cases e : c' = c
      · subst e
        rw [PubSub.setSlot_self, h1]
        have hq : ∀ e, p.settled c' e = true → c'.idx e ≠ i := by
          intro e he hie
          exact PPool.settled_iff.mp he ⟨n, _, ht, by rw [hie]; rfl⟩
        cases hp : p.mgr.slot c' with
        | none => exact absurd hp (hi.present n _ c' ht hmem)
        | some l' =>
          rw [hp] at hl
          simp only [Option.getD_some] at hl
          simp only [Option.map_some, Option.some.injEq]
          rw [← c'.filter_without i _ l' hq, ← hl, c'.filter_without i _ l hq]
      · rw [PubSub.setSlot_ne _ _ e]
        exact h1
    · intro j t' c' i' x' hj
      show c'.find i' (((p.mgr.setSlot c (some l)).slot c').getD []) = x'
      by_cases e : c' = c
      · subst e
        have hne : n ≠ j := by rintro rfl; rw [ht] at hj; cases hj
        have hii : i' ≠ i := fun e => hi.inner n j _ _ c' i i' hne ht hj rfl rfl (by rw [e])
        rw [PubSub.setSlot_self, Option.getD_some, ← c'.find_without l hii, hl, c'.find_without _ hii]
        exact h.seen j t' c' i' x' hj
      · rw [PubSub.setSlot_ne _ _ e]
        exact h.seen j t' c' i' x' hj
  | @innerCommit n t c i x ht =>
    right
    refine ⟨n, ?_⟩
    have hil := (List.getElem?_eq_some_iff.mp ht).1
    have hneed : t.need = some (.remove c i) := hi.sound n _ ht
    have hmem : c ∈ (PThread.removing t c i x).shares := List.mem_singleton.mpr rfl
    have hfree := h.free hi c fun j t' hj c' hc' e => by
      by_cases hjn : j = n
      · subst hjn; rw [ht] at hj; cases hj; cases hc'
      · exact hi.apart j n _ _ c' c hjn hj ht hc' (PThread.holds_of_shares hmem) e.symm
    have hslots := h.slots c (hshared ht hmem)
    obtain ⟨pl, hp⟩ := Option.ne_none_iff_exists'.mp (hi.present n _ c ht hmem)
    have hfound := h.found n t c i x ht
    rw [hp] at hslots ⊢
    cases ha : a.mgr.slot c with
    | none => rw [ha] at hslots; cases hslots
    | some al =>
      rw [ha] at hslots hfound
      simp only [Option.map_some, Option.some.injEq] at hslots
      simp only [Option.getD_some] at hfound ⊢
      have hst : t.step (a.free L.session) a.mgr = (t.given c x, a.mgr.setSlot c (some (c.without i al))) := by
        rw [SubThread.step_free (c := c) (.inr (.inl ⟨i, hneed⟩)) _ hfree a.mgr, SubThread.step_remove hneed, ha]
        simp only [hfound]
      rw [SubPool.stepAt_at (hget n _ ht)]
      simp only [PThread.rest, hst]
      refine ⟨?_, ?_, ?_, ?_, ?_, ?_, ?_⟩
      · simp only [h.threads, List.map_set]; rfl
      · simp only [PubSub.setSlot_made, h.made]
      · simp only [PubSub.setSlot_closed, h.closed]
      · intro c' hc'
        generalize hq : (PPool.settled { threads := p.threads.set n (.leaving (t.given c x) c), mgr := p.mgr.setSlot c (some (c.without i pl)) } c') = q
        dsimp only
        by_cases e : c' = c
        · subst e
          rw [PubSub.setSlot_self, PubSub.setSlot_self]
          simp only [Option.map_some, Option.some.injEq]
          have hle : ∀ e, (decide (c'.idx e ≠ i) && q e) = (decide (c'.idx e ≠ i) && p.settled c' e) := by
            intro e
            by_cases he : c'.idx e = i
            · simp [he]
            · have : q e = p.settled c' e := by
                rw [← hq]
                rw [Bool.eq_iff_iff, PPool.settled_iff, PPool.settled_iff]
                refine not_congr ?_
                constructor
                · rintro ⟨j, t', hj, ho⟩
                  rcases getElem?_set_cases hj with ⟨rfl, rfl⟩ | ⟨hne, hj⟩
                  · cases ho
                  · exact ⟨j, t', hj, ho⟩
                · rintro ⟨j, t', hj, ho⟩
                  have hne : j ≠ n := by
                    rintro rfl
                    rw [ht] at hj
                    cases hj
                    simp only [PThread.ownsInner, Option.some.injEq, Sigma.mk.injEq, heq_eq_eq, true_and] at ho
                    exact he ho.symm
                  exact ⟨j, t', by show (p.threads.set n _)[j]? = _; rw [List.getElem?_set_ne (fun e' => hne e'.symm)]; exact hj, ho⟩
              rw [this]
          have hs : ∀ l : List c'.Item, (c'.without i l).filter q = c'.without i (l.filter (p.settled c')) := by
            intro l
            unfold Slot.without
            rw [List.filter_filter, List.filter_filter]
            refine List.filter_congr fun e _ => ?_
            rw [Bool.and_comm, hle]
          rw [hs, hs, hslots]
        · rw [PubSub.setSlot_ne _ _ e, PubSub.setSlot_ne _ _ e]
          have : q = p.settled c' := by
            rw [← hq]
            funext e'
            rw [Bool.eq_iff_iff, PPool.settled_iff, PPool.settled_iff]
            refine not_congr ?_
            constructor
            · rintro ⟨j, t', hj, ho⟩
              rcases getElem?_set_cases hj with ⟨rfl, rfl⟩ | ⟨hne, hj⟩
              · cases ho
              · exact ⟨j, t', hj, ho⟩
            · rintro ⟨j, t', hj, ho⟩
              have hne : j ≠ n := by
                rintro rfl
                rw [ht] at hj
                cases hj
                simp only [PThread.ownsInner, Option.some.injEq, Sigma.mk.injEq] at ho
                exact e ho.1.symm
              exact ⟨j, t', by show (p.threads.set n _)[j]? = _; rw [List.getElem?_set_ne (fun e' => hne e'.symm)]; exact hj, ho⟩
          rw [this]
          exact h.slots c' (howner ht (fun _ _ e => by cases e) hc')
      · intro j t' c' o' hj
        rcases getElem?_set_cases hj with ⟨-, e⟩ | ⟨-, gj⟩
        · cases e
        · have : c' ≠ c := by rintro rfl; exact hshared ht hmem j t' o' gj
          dsimp only
          rw [PubSub.setSlot_ne _ _ this]
          exact h.hidden j t' c' o' gj
      · intro j t' c' i' x' hj
        rcases getElem?_set_cases hj with ⟨-, e⟩ | ⟨hne, gj⟩
        · cases e
        · dsimp only
          by_cases e : c' = c
          · subst e
            have hii : i' ≠ i := fun e => hi.inner n j _ _ c' i i' (Ne.symm hne) ht gj rfl rfl (by rw [e])
            have := h.found j t' c' i' x' gj
            rw [ha] at this
            rw [PubSub.setSlot_self, Option.getD_some, c'.find_without _ hii]
            exact this
          · rw [PubSub.setSlot_ne _ _ e]
            exact h.found j t' c' i' x' gj
      · intro j t' c' i' x' hj
        rcases getElem?_set_cases hj with ⟨-, e⟩ | ⟨hne, gj⟩
        · cases e
        · dsimp only
          by_cases e : c' = c
          · subst e
            have hii : i' ≠ i := fun e => hi.inner n j _ _ c' i i' (Ne.symm hne) ht gj rfl rfl (by rw [e])
            have := h.seen j t' c' i' x' gj
            rw [hp] at this
            rw [PubSub.setSlot_self, Option.getD_some, c'.find_without _ hii]
            exact this
          · rw [PubSub.setSlot_ne _ _ e]
            exact h.seen j t' c' i' x' gj
  | @innerShare n t c i ht hn hno =>
    right
    refine ⟨n, ?_⟩
    have hmem : c ∈ (PThread.sharing t c i).shares := List.mem_singleton.mpr rfl
    have hfree := h.free hi c fun j t' hj c' hc' e => by
      by_cases hjn : j = n
      · subst hjn; rw [ht] at hj; cases hj; cases hc'
      · exact hi.apart j n _ _ c' c hjn hj ht hc' (PThread.holds_of_shares hmem) e.symm
    have hfind := h.find c i (hshared ht hmem) (by
      rintro ⟨j, t', hj, ho⟩
      exact hno j t' i hj ho rfl)
    have hslots := h.slots c (hshared ht hmem)
    have hst : t.step (a.free L.session) a.mgr = (t.given c (c.find i ((p.mgr.slot c).getD [])), a.mgr) := by
      rw [SubThread.step_free (c := c) (.inr (.inr ⟨i, hn⟩)) _ hfree a.mgr, SubThread.step_look hn, ← hfind]
      cases a.mgr.slot c <;> rfl
    rw [SubPool.stepAt_at (hget n _ ht)]
    simp only [PThread.rest, hst]
    refine ⟨?_, h.made, h.closed, ?_, ?_, ?_, ?_⟩
    · simp only [h.threads, List.map_set]; rfl
    · intro c' hc'
      rw [PPool.settled_set (t1 := .looking t c i (c.find i ((p.mgr.slot c).getD []))) ht rfl]
      exact h.slots c' (howner ht (fun _ _ e => by cases e) hc')
    · intro j t' c' o' hj
      rcases getElem?_set_cases hj with ⟨-, e⟩ | ⟨-, hj⟩
      · cases e
      · exact h.hidden j t' c' o' hj
    · intro j t' c' i x hj
      rcases getElem?_set_cases hj with ⟨-, e⟩ | ⟨-, hj⟩
      · cases e
      · exact h.found j t' c' i x hj
    · intro j t' c' i x hj
      rcases getElem?_set_cases hj with ⟨-, e⟩ | ⟨-, hj⟩
      · cases e; rfl
      · exact h.seen j t' c' i x hj
  | @innerRelease n t c i x ht =>
    left
    have hsn := h.seen n t c i x ht
    rw [hsn]
    refine ⟨?_, h.made, h.closed, ?_, ?_, ?_, ?_⟩
    · rw [h.threads]; exact (set_map_at ht (by rfl)).symm
    · intro c' hc'
      rw [PPool.settled_set (t1 := .leaving (t.given c x) c) ht rfl]
      exact h.slots c' (howner ht (fun _ _ e => by cases e) hc')
    · intro j t' c' o' hj
      rcases getElem?_set_cases hj with ⟨-, e⟩ | ⟨-, hj⟩
      · cases e
      · exact h.hidden j t' c' o' hj
    · intro j t' c' i x hj
      rcases getElem?_set_cases hj with ⟨-, e⟩ | ⟨-, hj⟩
      · cases e
      · exact h.found j t' c' i x hj
    · intro j t' c' i x hj
      rcases getElem?_set_cases hj with ⟨-, e⟩ | ⟨-, hj⟩
      · cases e
      · exact h.seen j t' c' i x hj
  | @release n t c ht =>
    left
    refine ⟨?_, h.made, h.closed, ?_, ?_, ?_, ?_⟩
    · rw [h.threads]; exact (set_map_at ht (by rfl)).symm
    · intro c' hc'
      rw [PPool.settled_set (t1 := .ready t) ht rfl]
      exact h.slots c' (howner ht (fun _ _ e => by cases e) hc')
    · intro j t' c' o' hj
      rcases getElem?_set_cases hj with ⟨-, e⟩ | ⟨-, hj⟩
      · cases e
      · exact h.hidden j t' c' o' hj
    · intro j t' c' i x hj
      rcases getElem?_set_cases hj with ⟨-, e⟩ | ⟨-, hj⟩
      · cases e
      · exact h.found j t' c' i x hj
    · intro j t' c' i x hj
      rcases getElem?_set_cases hj with ⟨-, e⟩ | ⟨-, hj⟩
      · cases e
      · exact h.seen j t' c' i x hj
  | @close n xs ht =>
    right
    refine ⟨n, ?_⟩
    obtain ⟨t1, h1⟩ : ∃ t1, ∀ (free : UInt32 → Bool) (m : PubSub), (SubThread.closing xs).step free m =
        (t1, { m with closed := xs.head?.toList ++ m.closed }) := by
      cases xs with
      | nil => exact ⟨_, fun _ _ => rfl⟩
      | cons x xs => exact ⟨_, fun _ _ => rfl⟩
    have h2 : ∀ (m : PubSub) c', ({ m with closed := xs.head?.toList ++ m.closed } : PubSub).slot c' = m.slot c' := by intro m c'; cases c' <;> rfl
    rw [SubPool.stepAt_at (hget n _ ht)]
    simp only [PThread.rest, h1]
    refine ⟨?_, h.made, ?_, ?_, ?_, ?_, ?_⟩
    · simp only [h.threads, List.map_set]; rfl
    · simp only [h.closed]
    · intro c' hc'
      rw [PPool.settled_set (t1 := .ready t1) ht rfl]
      dsimp only
      rw [h2, h2]
      exact h.slots c' (howner ht (fun _ _ e => by cases e) hc')
    · intro j t' c' o' hj
      rcases getElem?_set_cases hj with ⟨-, e⟩ | ⟨-, hj⟩
      · cases e
      · dsimp only; rw [h2]; exact h.hidden j t' c' o' hj
    · intro j t' c' i x hj
      rcases getElem?_set_cases hj with ⟨-, e⟩ | ⟨-, hj⟩
      · cases e
      · dsimp only; rw [h2]; exact h.found j t' c' i x hj
    · intro j t' c' i x hj
      rcases getElem?_set_cases hj with ⟨-, e⟩ | ⟨-, hj⟩
      · cases e
      · dsimp only; rw [h2]; exact h.seen j t' c' i x hj

/-- The calls, none of which has begun. -/
def Spec.subWaiting (calls : List SubCall) : PPool := { threads := calls.map fun c => .ready c.thread, mgr := .new }

theorem subWaiting_ready {calls : List SubCall} {n : Nat} {t : PThread} (h : (subWaiting calls).threads[n]? = some t) :
    ∃ c : SubCall, t = .ready c.thread := by
  simp only [subWaiting, List.getElem?_map, Option.map_eq_some_iff] at h
  obtain ⟨c, -, rfl⟩ := h
  exact ⟨c, rfl⟩

theorem Spec.SubCall.thread_holds (c : SubCall) : c.thread.holds = none := by
  rcases c with ⟨_ | _ | _⟩ | _ <;> rfl

theorem pinv_start (L : SubLocks) (calls : List SubCall) : SubLockInv L (subWaiting calls) := by
  refine ⟨?_, ?_, ?_, ?_⟩
  · intro n j t t' c c' _ hn _ hc
    obtain ⟨x, rfl⟩ := subWaiting_ready hn
    simp [PThread.owns, SubThread.keeps, SubCall.thread_holds] at hc
  · intro n j t t' c i i' _ hn _ hc
    obtain ⟨x, rfl⟩ := subWaiting_ready hn
    cases hc
  · intro n t c hn hc
    obtain ⟨x, rfl⟩ := subWaiting_ready hn
    cases hc
  · intro n t hn
    obtain ⟨x, rfl⟩ := subWaiting_ready hn
    trivial

theorem subCovers_start (calls : List SubCall) : SubCovers (subWaiting calls) (subPool calls) := by
  refine ⟨?_, rfl, rfl, fun _ _ => rfl, ?_, ?_, ?_⟩
  · simp only [subWaiting, subPool, List.map_map]; rfl
  · intro n t c o hn
    obtain ⟨x, hx⟩ := subWaiting_ready hn
    cases hx
  · intro n t c i x hn
    obtain ⟨x, hx⟩ := subWaiting_ready hn
    cases hx
  · intro n t c i x hn
    obtain ⟨x, hx⟩ := subWaiting_ready hn
    cases hx

theorem subCovers_exec {L : SubLocks} {calls : List SubCall} {p : PPool} (hp : PSteps L (subWaiting calls) p) :
    SubLockInv L p ∧ ∃ sched, SubCovers p ((subPool calls).exec L.session sched) := by
  generalize hq : subWaiting calls = q at hp
  induction hp with
  | refl => subst hq; exact ⟨pinv_start L calls, [], subCovers_start calls⟩
  | tail _ hs ih =>
    obtain ⟨hi, sched, h⟩ := ih
    refine ⟨hi.step hs, ?_⟩
    rcases h.step hi hs with h' | ⟨n, h'⟩
    · exact ⟨sched, h'⟩
    · exact ⟨sched ++ [n], by unfold SubPool.exec at *; rw [List.foldl_append]; exact h'⟩

/-- C165. Let the accesses of publish/subscribe to its maps be spread out in time, with the locks of the maps and of the maps
within them: locks are acquired, shared or exclusive, entries go through any states while they are locked exclusively,
and other threads run in between. Whenever all calls have returned, their answers and the state of the manager are
those of an execution in which each access is a single step, so all claims about these hold. -/
theorem C165_one_step (L : SubLocks) (calls : List SubCall) (p : PPool) (hp : PSteps L (subWaiting calls) p)
    (hf : ∀ t ∈ p.threads, ∃ t', t = .ready t' ∧ SubDone t') :
    ∃ sched, ((subPool calls).exec L.session sched).threads.map .ready = p.threads ∧ ((subPool calls).exec L.session sched).mgr = p.mgr := by
  obtain ⟨-, sched, h⟩ := subCovers_exec hp
  have hno : ∀ (j : Nat) t', p.threads[j]? = some t' → ∃ u, t' = .ready u := by
    intro j t' hj
    obtain ⟨u, hu, -⟩ := hf t' (List.mem_of_getElem? hj)
    exact ⟨u, hu⟩
  refine ⟨sched, ?_, PubSub.slot_ext (fun c => h.same c fun j t' hj => ?_) h.made h.closed⟩
  · rw [h.threads, List.map_map]
    conv => rhs; rw [← List.map_id p.threads]
    refine List.map_congr_left fun t ht => ?_
    obtain ⟨x, rfl, -⟩ := hf t ht
    rfl
  · obtain ⟨u, rfl⟩ := hno j t' hj
    exact ⟨fun _ _ e => (by cases e), fun _ e => (by cases e)⟩

/-- C165 at every moment. There is an execution in which each access is a single step and after which: a call that is
between two accesses (or has returned) is at the same point; an entry that nobody has locked exclusively exists if it
exists there; an item in it that nobody is just removing is there if it is there, and the same; the same subscriptions
are closed. -/
theorem C165_moments (L : SubLocks) (calls : List SubCall) (p : PPool) (hp : PSteps L (subWaiting calls) p) :
    ∃ sched, (∀ (n : Nat) t, p.threads[n]? = some (.ready t) → ((subPool calls).exec L.session sched).threads[n]? = some t) ∧
      (∀ c, (∀ t ∈ p.threads, c ∉ t.owns) →
        (p.mgr.slot c).isSome = (((subPool calls).exec L.session sched).mgr.slot c).isSome ∧
        ∀ i, (∀ t ∈ p.threads, t.ownsInner ≠ some ⟨c, i⟩) →
          c.find i ((p.mgr.slot c).getD []) = c.find i ((((subPool calls).exec L.session sched).mgr.slot c).getD [])) ∧
      p.mgr.closed = ((subPool calls).exec L.session sched).mgr.closed := by
  obtain ⟨-, sched, h⟩ := subCovers_exec hp
  refine ⟨sched, ?_, ?_, h.closed.symm⟩
  · intro n t ht
    rw [h.threads, List.getElem?_map, ht]; rfl
  · intro c hc
    have hno : ∀ (n : Nat) t o, p.threads[n]? ≠ some (.owning t c o) := fun n t o hn =>
      hc _ (List.mem_of_getElem? hn) (List.mem_cons_self ..)
    refine ⟨?_, fun i hi => (h.find c i hno ?_).symm⟩
    · have := congrArg Option.isSome (h.slots c hno)
      simpa using this.symm
    · rintro ⟨n, t, hn, ht⟩
      exact hi t (List.mem_of_getElem? hn) ht

theorem PSteps.trans {L : SubLocks} {p q r : PPool} (h1 : PSteps L p q) (h2 : PSteps L q r) : PSteps L p r := by
  induction h2 with
  | refl => exact h1
  | tail _ hs ih => exact .tail ih hs

theorem SubThread.need_cases (t : SubThread) : SubDone t ∨ (∃ xs, t = .closing xs) ∨ (∃ c, t.need = some (.whole c)) ∨
    (∃ c i, t.need = some (.remove c i)) ∨ ∃ c i, t.need = some (.look c i) := by
  cases t with
  | subscribed | unsubscribed | got | sessionRemoved => exact .inl trivial
  | closing xs => exact .inr (.inl ⟨xs, rfl⟩)
  | subscribe | subscribing | removeSession => exact .inr (.inr (.inl ⟨_, rfl⟩))
  | unsubscribe | unsubscribing => exact .inr (.inr (.inr (.inl ⟨_, _, rfl⟩)))
  | get => exact .inr (.inr (.inr (.inr ⟨_, _, rfl⟩)))

/-- A thread that waits in the model without locks, or may go on. -/
theorem SubThread.step_blocked {t : SubThread} {s : UInt32} (h : t.asks (.session s)) (free : UInt32 → Bool) (hf : free s = false) (m : PubSub) :
    t.step free m = (t, m) := by
  unfold SubThread.asks at h
  cases t <;> simp only [SubThread.need, Option.some.injEq, SubNeed.whole.injEq, SubNeed.remove.injEq, SubNeed.look.injEq, Slot.session.injEq,
    reduceCtorEq, false_and, exists_false, or_false, false_or] at h
  all_goals first
    | exact h.elim
    | (obtain ⟨i, rfl, -⟩ := h; simp [SubThread.step, hf])
    | (subst h; simp [SubThread.step, hf])

/-- The threads of a pool without locks, all between two accesses. -/
private def quiet (a : SubPool) : PPool := { threads := a.threads.map .ready, mgr := a.mgr }

theorem psteps_stepAt (L : SubLocks) (a : SubPool) (n : Nat) : PSteps L (quiet a) (quiet (a.stepAt L.session n)) := by
  cases ht : a.threads[n]? with
  | none =>
    have : a.stepAt L.session n = a := by unfold SubPool.stepAt; rw [ht]
    rw [this]; exact .refl
  | some t =>
    have hil : n < a.threads.length := (List.getElem?_eq_some_iff.mp ht).1
    have hset : a.threads.set n t = a.threads := by
      obtain ⟨h1, h2⟩ := List.getElem?_eq_some_iff.mp ht
      rw [← h2]
      exact List.set_getElem_self _
    have ht' : (quiet a).threads[n]? = some (.ready t) := by simp [quiet, ht]
    have hq : ∀ (m : PubSub) (t1 : SubThread), { threads := (quiet a).threads.set n (.ready t1), mgr := m } = quiet { threads := a.threads.set n t1, mgr := m } := by
      intro m t1; simp only [quiet, List.map_set]
    rw [SubPool.stepAt_at ht]
    -- nobody holds the lock, or the thread waits
    have hlock : ∀ c, t.asks c → t.step (a.free L.session) a.mgr = (t, a.mgr) ∨ (t.step (a.free L.session) a.mgr = t.step (fun _ => true) a.mgr ∧
        ∀ (j : Nat) t', (quiet a).threads[j]? = some t' → ∀ c' ∈ t'.holds, L.of c' ≠ L.of c) := by
      intro c hc
      have hkeeps : ∀ (j : Nat) t', (quiet a).threads[j]? = some t' → ∀ c' ∈ t'.holds, ∃ s u, c' = .session s ∧ u ∈ a.threads ∧ u.holds = some s := by
        intro j t' hj c' hc'
        simp only [quiet, List.getElem?_map, Option.map_eq_some_iff] at hj
        obtain ⟨u, hu, rfl⟩ := hj
        simp only [PThread.holds, SubThread.keeps, Option.mem_toList, Option.map_eq_some_iff] at hc'
        obtain ⟨s, hs, rfl⟩ := hc'
        exact ⟨s, u, rfl, List.mem_of_getElem? hu, hs⟩
      cases c with
      | key k =>
        refine .inr ⟨SubThread.step_free hc _ (fun s e => by cases e) _, ?_⟩
        intro j t' hj c' hc' e
        obtain ⟨s, u, rfl, -, -⟩ := hkeeps j t' hj c' hc'
        simp [SubLocks.of] at e
      | session s =>
        cases hf : a.free L.session s with
        | false => exact .inl (SubThread.step_blocked hc _ hf _)
        | true =>
          refine .inr ⟨SubThread.step_free hc _ (fun s' e => by cases e; exact hf) _, ?_⟩
          intro j t' hj c' hc' e
          obtain ⟨s', u, rfl, hu, hs⟩ := hkeeps j t' hj c' hc'
          unfold SubPool.free at hf
          rw [List.all_eq_true] at hf
          have := hf u hu
          rw [hs] at this
          simp only [bne_iff_ne, ne_eq] at this
          simp only [SubLocks.of, Prod.mk.injEq, true_and] at e
          exact this e
    have hstay : t.step (a.free L.session) a.mgr = (t, a.mgr) →
        PSteps L (quiet a) (quiet { threads := a.threads.set n (t.step (a.free L.session) a.mgr).1, mgr := (t.step (a.free L.session) a.mgr).2 }) := by
      intro e
      rw [e, hset]
      exact .refl
    have hshare : ∀ c i, (t.need = some (.remove c i) ∨ t.need = some (.look c i)) →
        (∀ (j : Nat) t', (quiet a).threads[j]? = some t' → ∀ c' ∈ t'.holds, L.of c' ≠ L.of c) → ∀ l, a.mgr.slot c = some l →
        PSteps L (quiet a) { threads := (quiet a).threads.set n (.sharing t c i), mgr := a.mgr } := by
      intro c i hn hno l hl
      exact .tail .refl (.share ht' hn (fun j t' hj c' hc' => hno j t' hj c' (PThread.holds_of_owns hc')) (by
        show a.mgr.slot c ≠ none
        rw [hl]; simp))
    have hquiet : ∀ {m : PubSub} {t1 : PThread}, t1.holdsInner = none →
        ∀ (j : Nat) t' c i, ({ threads := (quiet a).threads.set n t1, mgr := m } : PPool).threads[j]? = some t' → t'.holdsInner = some ⟨c, i⟩ → False := by
      intro m t1 h1 j t' c i hj hh
      rcases getElem?_set_cases hj with ⟨rfl, rfl⟩ | ⟨-, gj⟩
      · rw [h1] at hh; cases hh
      · simp only [quiet, List.getElem?_map, Option.map_eq_some_iff] at gj
        obtain ⟨u, hu, rfl⟩ := gj
        cases hh
    have hat : ∀ t1 : PThread, ((quiet a).threads.set n t1)[n]? = some t1 := fun t1 =>
      List.getElem?_set_self (by simp [quiet, hil])
    rcases t.need_cases with hd | ⟨xs, rfl⟩ | ⟨c, hn⟩ | ⟨c, i, hn⟩ | ⟨c, i, hn⟩
    · refine hstay ?_
      cases t <;> first | rfl | exact hd.elim
    · have h1 := PStep.close (L := L) ht'
      rw [hq] at h1
      have e : (SubThread.closing xs).step (fun _ => true) (quiet a).mgr = (SubThread.closing xs).step (a.free L.session) a.mgr := by
        cases xs <;> rfl
      rw [e] at h1
      exact .tail .refl h1
    · rcases hlock c (.inl hn) with e | ⟨e, hno⟩
      · exact hstay e
      · rw [e]
        have h1 := PStep.lock (L := L) ht' hn hno
        have h2 := PStep.commit (L := L) (p := { threads := (quiet a).threads.set n (.owning t c (a.mgr.slot c)), mgr := a.mgr }) (n := n) (t := t) (c := c)
          (o := a.mgr.slot c) (hat _)
        have hm : a.mgr.setSlot c (a.mgr.slot c) = a.mgr := PubSub.slot_ext (fun c' => by
          by_cases e : c' = c
          · subst e; exact PubSub.setSlot_self ..
          · exact PubSub.setSlot_ne _ _ e) (PubSub.setSlot_made ..) (PubSub.setSlot_closed ..)
        simp only [hm, List.set_set] at h2
        rw [hq] at h2
        exact .tail (.tail .refl h1) h2
    · rcases hlock c (.inr (.inl ⟨i, hn⟩)) with e | ⟨e, hno⟩
      · exact hstay e
      · rw [e, SubThread.step_remove hn]
        cases hl : a.mgr.slot c with
        | none =>
          have h1 := PStep.miss (L := L) ht' (.inl hn) (fun j t' hj c' hc' => hno j t' hj c' (PThread.holds_of_owns hc')) hl
          rw [hq] at h1
          exact .tail .refl h1
        | some l =>
          have h2 := PStep.innerLock (L := L) (p := { threads := (quiet a).threads.set n (.sharing t c i), mgr := a.mgr }) (n := n) (t := t) (c := c) (i := i)
            (hat _) hn (fun j t' i' hj hh => (hquiet rfl j t' c i' hj hh).elim)
          simp only [List.set_set, hl, Option.getD_some] at h2
          have h3 := PStep.innerCommit (L := L) (p := { threads := (quiet a).threads.set n (.removing t c i (c.find i l)), mgr := a.mgr }) (n := n) (hat _)
          simp only [List.set_set, hl, Option.getD_some] at h3
          have h4 := PStep.release (L := L) (p := { threads := (quiet a).threads.set n (.leaving (t.given c (c.find i l)) c), mgr := a.mgr.setSlot c (some (c.without i l)) })
            (n := n) (hat _)
          simp only [List.set_set] at h4
          rw [hq] at h4
          exact .tail (.tail (.tail (hshare c i (.inl hn) hno l hl) h2) h3) h4
    · rcases hlock c (.inr (.inr ⟨i, hn⟩)) with e | ⟨e, hno⟩
      · exact hstay e
      · rw [e, SubThread.step_look hn]
        cases hl : a.mgr.slot c with
        | none =>
          have h1 := PStep.miss (L := L) ht' (.inr hn) (fun j t' hj c' hc' => hno j t' hj c' (PThread.holds_of_owns hc')) hl
          rw [hq] at h1
          exact .tail .refl h1
        | some l =>
          have h2 := PStep.innerShare (L := L) (p := { threads := (quiet a).threads.set n (.sharing t c i), mgr := a.mgr }) (n := n) (t := t) (c := c) (i := i)
            (hat _) hn (fun j t' i' hj hh => (hquiet rfl j t' c i' hj (PThread.holdsInner_of_ownsInner hh)).elim)
          simp only [List.set_set, hl, Option.getD_some] at h2
          have h3 := PStep.innerRelease (L := L) (p := { threads := (quiet a).threads.set n (.looking t c i (c.find i l)), mgr := a.mgr }) (n := n) (hat _)
          simp only [List.set_set, hl, Option.getD_some] at h3
          have h4 := PStep.release (L := L) (p := { threads := (quiet a).threads.set n (.leaving (t.given c (c.find i l)) c), mgr := a.mgr })
            (n := n) (hat _)
          simp only [List.set_set] at h4
          rw [hq] at h4
          exact .tail (.tail (.tail (hshare c i (.inr hn) hno l hl) h2) h3) h4

/-- C165, the other way round: every execution in which each access is a single step is possible with locks. -/
theorem C165_all_possible (L : SubLocks) (calls : List SubCall) (sched : List Nat) :
    PSteps L (subWaiting calls)
      { threads := ((subPool calls).exec L.session sched).threads.map .ready, mgr := ((subPool calls).exec L.session sched).mgr } := by
  have h : ∀ (sched : List Nat) (a : SubPool), PSteps L (quiet a) (quiet (a.exec L.session sched)) := by
    intro sched
    induction sched with
    | nil => intro a; exact .refl
    | cons n sched ih =>
      intro a
      exact (psteps_stepAt L a n).trans (ih (a.stepAt L.session n))
  have e : subWaiting calls = quiet (subPool calls) := by
    simp only [subWaiting, subPool, quiet, List.map_map]
    rfl
  rw [e]
  exact h sched (subPool calls)

/-! ## No deadlock -/

/-- Thread `n` can take a step, and not just go on with a modification. -/
def Spec.SubMoves (L : SubLocks) (p : PPool) (n : Nat) : Prop :=
  ∃ t t' m', p.threads[n]? = some t ∧ t' ≠ t ∧ PStep L p { threads := p.threads.set n t', mgr := m' }

/-- Thread `n` needs a lock that thread `j` holds: of an entry, or of the map in an entry. -/
inductive Spec.SubWaits (L : SubLocks) (p : PPool) (n j : Nat) : Prop
  | entry {t : SubThread} {t' : PThread} {c c' : Slot} (ht : p.threads[n]? = some (.ready t)) (hj : p.threads[j]? = some t')
      (ha : t.asks c) (hh : c' ∈ t'.holds) (hl : L.of c' = L.of c)
  | inner {t : SubThread} {t' : PThread} {c : Slot} {i i' : c.Idx} (ht : p.threads[n]? = some (.sharing t c i)) (hj : p.threads[j]? = some t')
      (hh : t'.holdsInner = some ⟨c, i'⟩) (hl : L.inner c i' = L.inner c i)

/-- From thread `n` one comes to a thread that can go on, following `d` times whom a thread waits for. -/
inductive Spec.SubLeads (L : SubLocks) (p : PPool) : Nat → Nat → Prop
  | moves {n : Nat} : SubMoves L p n → SubLeads L p 0 n
  | waits {n j d : Nat} : j ≠ n → SubWaits L p n j → SubLeads L p d j → SubLeads L p (d + 1) n

theorem subMoves_inner {L : SubLocks} {p : PPool} {n : Nat} {t : PThread} {x : (c : Slot) × c.Idx} (ht : p.threads[n]? = some t)
    (h : t.holdsInner = some x) : SubMoves L p n := by
  cases t with
  | removing t c i x => exact ⟨_, _, _, ht, (by simp), .innerCommit ht⟩
  | looking t c i x => exact ⟨_, _, _, ht, (by simp), .innerRelease ht⟩
  | _ => cases h

theorem subLeads_shares {L : SubLocks} {p : PPool} (hi : SubLockInv L p) {n : Nat} {t : PThread} {c : Slot} (ht : p.threads[n]? = some t)
    (h : c ∈ t.shares) : ∃ d ≤ 1, SubLeads L p d n := by
  cases t with
  | ready t => cases h
  | owning t c o => cases h
  | removing t c i x => exact ⟨0, by omega, .moves (subMoves_inner ht rfl)⟩
  | looking t c i x => exact ⟨0, by omega, .moves (subMoves_inner ht rfl)⟩
  | leaving t c => exact ⟨0, by omega, .moves ⟨_, _, _, ht, (by simp), .release ht⟩⟩
  | sharing t c i =>
    by_cases hno : ∀ (j : Nat) t' i', p.threads[j]? = some t' → t'.holdsInner = some ⟨c, i'⟩ → L.inner c i' ≠ L.inner c i
    · refine ⟨0, by omega, .moves ?_⟩
      rcases hi.sound n _ ht with hn | hn
      · exact ⟨_, _, _, ht, (by simp), .innerLock ht hn hno⟩
      · exact ⟨_, _, _, ht, (by simp), .innerShare ht hn fun j t' i' hj ho => hno j t' i' hj (PThread.holdsInner_of_ownsInner ho)⟩
    · simp only [Classical.not_forall, Decidable.not_not] at hno
      obtain ⟨j, t', i', hj, hh, hl⟩ := hno
      refine ⟨1, by omega, .waits ?_ (.inner ht hj hh hl) (.moves (subMoves_inner hj hh))⟩
      rintro rfl
      rw [ht] at hj
      cases hj
      cases hh

theorem subLeads_subscribing {L : SubLocks} {p : PPool} (hi : SubLockInv L p) {n : Nat} {k : Bytes} {s : UInt32} {x : Nat}
    (ht : p.threads[n]? = some (.ready (.subscribing k s x))) : ∃ d ≤ 2, SubLeads L p d n := by
  have hn : (SubThread.subscribing k s x).need = some (.whole (.key k)) := rfl
  by_cases hno : ∀ (j : Nat) t', p.threads[j]? = some t' → ∀ c' ∈ t'.holds, L.of c' ≠ L.of (.key k)
  · exact ⟨0, by omega, .moves ⟨_, _, _, ht, (by simp), .lock ht hn hno⟩⟩
  · simp only [Classical.not_forall, Decidable.not_not] at hno
    obtain ⟨j, t', hj, c', hc', hl⟩ := hno
    have hne : j ≠ n := by
      rintro rfl
      rw [ht] at hj
      cases hj
      obtain rfl := List.mem_singleton.mp hc'
      simp [SubLocks.of] at hl
    have hd : ∃ d ≤ 1, SubLeads L p d j := by
      cases t' with
      | ready t =>
        simp only [PThread.holds, SubThread.keeps, Option.mem_toList, Option.map_eq_some_iff] at hc'
        obtain ⟨s', -, rfl⟩ := hc'
        simp [SubLocks.of] at hl
      | owning t c o => exact ⟨0, by omega, .moves ⟨_, _, _, hj, (by simp), .commit hj⟩⟩
      | sharing t c i => exact subLeads_shares hi hj (List.mem_singleton.mpr rfl)
      | removing t c i x => exact subLeads_shares hi hj (List.mem_singleton.mpr rfl)
      | looking t c i x => exact subLeads_shares hi hj (List.mem_singleton.mpr rfl)
      | leaving t c => exact subLeads_shares hi hj (List.mem_singleton.mpr rfl)
    obtain ⟨d, hd, hld⟩ := hd
    exact ⟨d + 1, by omega, .waits hne (.entry ht hj (.inl hn) hc' hl) hld⟩

theorem subLeads_holds {L : SubLocks} {p : PPool} (hi : SubLockInv L p) {n : Nat} {t : PThread} {c : Slot} (ht : p.threads[n]? = some t)
    (h : c ∈ t.holds) : ∃ d ≤ 2, SubLeads L p d n := by
  cases t with
  | ready t =>
    simp only [PThread.holds, SubThread.keeps, Option.mem_toList, Option.map_eq_some_iff] at h
    obtain ⟨s', hs, rfl⟩ := h
    cases t with
    | subscribing k s x => exact subLeads_subscribing hi ht
    | _ => cases hs
  | owning t c o => exact ⟨0, by omega, .moves ⟨_, _, _, ht, (by simp), .commit ht⟩⟩
  | _ =>
    obtain ⟨d, h1, h2⟩ := subLeads_shares hi ht (c := c) h
    exact ⟨d, by omega, h2⟩

/-- C166. A call that has not returned can go on, or it waits for a lock; following whom it waits for, and whom that
call waits for, one comes after at most three calls to one that can go on. So nobody waits in a circle, whatever entries
share a lock. -/
theorem C166_no_deadlock (L : SubLocks) (calls : List SubCall) (p : PPool) (hp : PSteps L (subWaiting calls) p) (n : Nat) (t : PThread)
    (ht : p.threads[n]? = some t) : (∃ t', t = .ready t' ∧ SubDone t') ∨ ∃ d ≤ 3, SubLeads L p d n := by
  obtain ⟨hi, -⟩ := subCovers_exec hp
  cases t with
  | ready u =>
    have waits : ∀ c, u.asks c → ∀ (j : Nat) t' c', p.threads[j]? = some t' → c' ∈ t'.holds → L.of c' = L.of c → ∃ d ≤ 3, SubLeads L p d n := by
      intro c ha j t' c' hj hc' hl
      by_cases hne : j = n
      · subst hne
        obtain ⟨d, h1, h2⟩ := subLeads_holds hi hj hc'
        exact ⟨d, by omega, h2⟩
      · obtain ⟨d, h1, h2⟩ := subLeads_holds hi hj hc'
        exact ⟨d + 1, by omega, .waits hne (.entry ht hj ha hc' hl) h2⟩
    have inner : ∀ c i, (u.need = some (.remove c i) ∨ u.need = some (.look c i)) → u.asks c → u ≠ u.given c none → ∃ d ≤ 3, SubLeads L p d n := by
      intro c i hn ha hg
      by_cases hno : ∀ (j : Nat) t', p.threads[j]? = some t' → ∀ c' ∈ t'.owns, L.of c' ≠ L.of c
      · by_cases hm : p.mgr.slot c = none
        · exact ⟨0, by omega, .moves ⟨_, _, _, ht, (by simpa using Ne.symm hg), .miss ht hn hno hm⟩⟩
        · exact ⟨0, by omega, .moves ⟨_, _, _, ht, (by simp), .share ht hn hno hm⟩⟩
      · simp only [Classical.not_forall, Decidable.not_not] at hno
        obtain ⟨j, t', hj, c', hc', hl⟩ := hno
        exact waits c ha j t' c' hj (PThread.holds_of_owns hc') hl
    rcases u.need_cases with hd | ⟨xs, rfl⟩ | ⟨c, hn⟩ | ⟨c, i, hn⟩ | ⟨c, i, hn⟩
    · exact .inl ⟨u, rfl, hd⟩
    · refine .inr ⟨0, by omega, .moves ⟨_, _, _, ht, ?_, .close ht⟩⟩
      cases xs <;> simp [SubThread.step]
    · right
      by_cases hno : ∀ (j : Nat) t', p.threads[j]? = some t' → ∀ c' ∈ t'.holds, L.of c' ≠ L.of c
      · exact ⟨0, by omega, .moves ⟨_, _, _, ht, (by simp), .lock ht hn hno⟩⟩
      · simp only [Classical.not_forall, Decidable.not_not] at hno
        obtain ⟨j, t', hj, c', hc', hl⟩ := hno
        exact waits c (.inl hn) j t' c' hj hc' hl
    · refine .inr (inner c i (.inl hn) (.inr (.inl ⟨i, hn⟩)) ?_)
      cases u <;> simp only [SubThread.need, Option.some.injEq, SubNeed.remove.injEq, reduceCtorEq] at hn
      all_goals
        obtain ⟨rfl, -⟩ := hn
        simp [SubThread.given]
    · refine .inr (inner c i (.inr hn) (.inr (.inr ⟨i, hn⟩)) ?_)
      cases u <;> simp only [SubThread.need, Option.some.injEq, SubNeed.look.injEq, reduceCtorEq] at hn
      obtain ⟨rfl, -⟩ := hn
      simp [SubThread.given]
  | owning u c o => exact .inr ⟨0, by omega, .moves ⟨_, _, _, ht, (by simp), .commit ht⟩⟩
  | _ u c =>
    obtain ⟨d, h1, h2⟩ := subLeads_shares hi ht (c := c) (List.mem_singleton.mpr rfl)
    exact .inr ⟨d, by omega, h2⟩

/-! ## All calls return -/

/-- How many accesses a call has left. -/
def SubThread.weight : SubThread → Nat
  | .subscribe _ _ | .unsubscribe _ _ | .removeSession _ => 2
  | .subscribing _ _ _ | .unsubscribing _ _ _ | .get _ _ | .closing _ => 1
  | _ => 0

/-- How many subscriptions it has left to close. -/
def SubThread.left : SubThread → Nat
  | .closing xs => xs.length + 1
  | _ => 0

def PThread.weight : PThread → Nat × Nat
  | .ready t => (5 * t.weight, t.left)
  | .owning t _ _ => (5 * t.weight - 1, 0)
  | .sharing t _ _ => (5 * t.weight - 1, 0)
  | .removing t _ _ _ => (5 * t.weight - 2, 0)
  | .looking t _ _ _ => (5 * t.weight - 2, 0)
  | .leaving t _ => (5 * t.weight + 1, 0)

/-- One step of a call with locks. -/
def PLater : PThread → PThread → Prop := InvImage (Prod.Lex (· < ·) (· < ·)) PThread.weight

theorem PLater.acc (t : PThread) : Acc PLater t := (InvImage.wf _ (Prod.lex Nat.lt_wfRel Nat.lt_wfRel).wf).apply t

theorem SubThread.weight_pos {t : SubThread} {x : SubNeed} (h : t.need = some x) : 0 < t.weight := by
  cases t <;> simp [SubThread.need, SubThread.weight] at h ⊢

theorem SubThread.weight_whole {t : SubThread} {c : Slot} (h : t.need = some (.whole c)) (m : PubSub) :
    (t.step (fun _ => true) m).1.weight < t.weight := by
  cases t <;> simp only [SubThread.need, reduceCtorEq, Option.some.injEq, SubNeed.whole.injEq] at h
  · simp only [SubThread.step, if_true]
    split <;> simp [SubThread.weight]
  · simp [SubThread.step, SubThread.weight]
  · simp only [SubThread.step, if_true]
    split <;> simp [SubThread.weight]

theorem SubThread.weight_given {t : SubThread} {c : Slot} {i : c.Idx} (h : t.need = some (.remove c i) ∨ t.need = some (.look c i))
    (x : Option c.Item) : (t.given c x).weight < t.weight := by
  cases t <;> simp only [SubThread.need, Option.some.injEq, SubNeed.remove.injEq, SubNeed.look.injEq, reduceCtorEq, or_self, or_false, false_or] at h
  all_goals
    obtain ⟨rfl, -⟩ := h
    simp [SubThread.given, SubThread.weight]

theorem PStep.later {L : SubLocks} {p p' : PPool} (hi : SubLockInv L p) (h : PStep L p p') :
    p'.threads = p.threads ∨ OneOf PLater p'.threads p.threads := by
  have lt : ∀ {a b : PThread}, a.weight.1 < b.weight.1 → PLater a b := fun {a b} h => by
    show Prod.Lex _ _ a.weight b.weight
    generalize a.weight = x at *
    generalize b.weight = y at *
    obtain ⟨x1, x2⟩ := x
    obtain ⟨y1, y2⟩ := y
    exact Prod.Lex.left _ _ h
  cases h with
  | @lock n t c ht hn _ => exact .inr (OneOf.set ht (lt (by have := SubThread.weight_pos hn; simp only [PThread.weight]; omega)))
  | draft => exact .inl rfl
  | @commit n t c o ht =>
    exact .inr (OneOf.set ht (lt (by
      have := SubThread.weight_whole (hi.sound n _ ht) (p.mgr.setSlot c o)
      simp only [PThread.weight]; omega)))
  | @miss n t c i ht hn _ _ =>
    exact .inr (OneOf.set ht (lt (by have := SubThread.weight_given hn none; simp only [PThread.weight]; omega)))
  | @share n t c i ht hn _ _ =>
    exact .inr (OneOf.set ht (lt (by have := SubThread.weight_given hn none; simp only [PThread.weight]; omega)))
  | @innerLock n t c i ht hn _ =>
    exact .inr (OneOf.set ht (lt (by have := SubThread.weight_pos hn; simp only [PThread.weight]; omega)))
  | innerDraft => exact .inl rfl
  | @innerCommit n t c i x ht =>
    exact .inr (OneOf.set ht (lt (by have := SubThread.weight_given (.inl (hi.sound n _ ht)) x; simp only [PThread.weight]; omega)))
  | @innerShare n t c i ht hn _ =>
    exact .inr (OneOf.set ht (lt (by have := SubThread.weight_pos hn; simp only [PThread.weight]; omega)))
  | @innerRelease n t c i x ht =>
    exact .inr (OneOf.set ht (lt (by
      have := SubThread.weight_given (.inr (hi.sound n _ ht)) (c.find i ((p.mgr.slot c).getD []))
      simp only [PThread.weight]; omega)))
  | @release n t c ht => exact .inr (OneOf.set ht (lt (by simp only [PThread.weight]; omega)))
  | @close n xs ht =>
    cases xs with
    | nil => exact .inr (OneOf.set ht (lt (by simp [PThread.weight, SubThread.step, SubThread.weight])))
    | cons x xs => exact .inr (OneOf.set ht (by
        show Prod.Lex _ _ _ _
        simp only [PThread.weight, SubThread.step, SubThread.weight, SubThread.left]
        exact Prod.Lex.right _ (by simp)))

theorem SubLeads.someone {L : SubLocks} {p : PPool} {d n : Nat} (h : SubLeads L p d n) : ∃ j, SubMoves L p j := by
  induction h with
  | moves h => exact ⟨_, h⟩
  | waits _ _ _ ih => exact ih

theorem SubMoves.changed {L : SubLocks} {p : PPool} {n : Nat} (hi : SubLockInv L p) (h : SubMoves L p n) :
    ∃ p', PStep L p p' ∧ OneOf PLater p'.threads p.threads := by
  obtain ⟨t, t', m', ht, hne, hs⟩ := h
  refine ⟨_, hs, ?_⟩
  rcases hs.later hi with e | e
  · have hil := (List.getElem?_eq_some_iff.mp ht).1
    have : (p.threads.set n t')[n]? = some t' := List.getElem?_set_self hil
    rw [show p.threads.set n t' = p.threads from e, ht] at this
    cases this
    exact absurd rfl hne
  · exact e

/-- C166: from every situation all calls can still return. -/
theorem C166_can_finish (L : SubLocks) (calls : List SubCall) (p : PPool) (hp : PSteps L (subWaiting calls) p) :
    ∃ p', PSteps L p p' ∧ ∀ t ∈ p'.threads, ∃ t', t = .ready t' ∧ SubDone t' := by
  have key : ∀ l : List PThread, Acc (OneOf PLater) l → ∀ p : PPool, p.threads = l → PSteps L (subWaiting calls) p →
      ∃ p', PSteps L p p' ∧ ∀ t ∈ p'.threads, ∃ t', t = .ready t' ∧ SubDone t' := by
    intro l hl
    induction hl with
    | intro l _ ih =>
      rintro p rfl hp
      by_cases hd : ∀ t ∈ p.threads, ∃ t', t = .ready t' ∧ SubDone t'
      · exact ⟨p, .refl, hd⟩
      · simp only [Classical.not_forall] at hd
        obtain ⟨t, ht, hne⟩ := hd
        obtain ⟨n, hn⟩ := List.getElem?_of_mem ht
        obtain ⟨hi, -⟩ := subCovers_exec hp
        rcases C166_no_deadlock L calls p hp n t hn with h | ⟨d, -, h⟩
        · exact absurd h hne
        · obtain ⟨j, hj⟩ := SubLeads.someone h
          obtain ⟨p1, h1, h2⟩ := SubMoves.changed hi hj
          obtain ⟨p', h3, h4⟩ := ih _ h2 p1 rfl (.tail hp h1)
          exact ⟨p', (PSteps.tail .refl h1).trans h3, h4⟩
  exact key _ (OneOf.acc PLater.acc _) p rfl hp

theorem SubThread.given_ne {u : SubThread} {c : Slot} {i : c.Idx} (hn : u.need = some (.remove c i) ∨ u.need = some (.look c i)) (x : Option c.Item) :
    u.given c x ≠ u := fun e => by
  have := SubThread.weight_given hn x
  rw [e] at this
  omega

/-- Whether a thread can go on depends on the threads only. -/
theorem subMoves_threads {L : SubLocks} {p q : PPool} {n : Nat} (hq : q.threads = p.threads) (h : SubMoves L p n) : SubMoves L q n := by
  obtain ⟨t, t', m', ht, hne, hs⟩ := h
  have hch : (p.threads.set n t')[n]? ≠ p.threads[n]? := by
    rw [List.getElem?_set_self (List.getElem?_eq_some_iff.mp ht).1, ht]
    exact fun e => hne (Option.some.inj e)
  generalize hp' : ({ threads := p.threads.set n t', mgr := m' } : PPool) = p' at hs
  have hth : p'.threads = p.threads.set n t' := by rw [← hp']
  rw [← hth] at hch
  clear hp' hth
  have hat : ∀ {m : Nat} {u : PThread}, (p.threads.set m u)[n]? ≠ p.threads[n]? → m = n := by
    intro m u h
    refine Classical.byContradiction fun e => h ?_
    exact List.getElem?_set_ne e
  cases hs with
  | @lock m u c hu hn hno =>
    obtain rfl := hat hch
    rw [← hq] at hu hno
    exact ⟨_, _, _, hu, (by simp), .lock hu hn hno⟩
  | draft => exact absurd rfl hch
  | @commit m u c o hu =>
    obtain rfl := hat hch
    rw [← hq] at hu
    exact ⟨_, _, _, hu, (by simp), .commit hu⟩
  | @miss m u c i hu hn hno _ | @share m u c i hu hn hno _ =>
    obtain rfl := hat hch
    rw [← hq] at hu hno
    by_cases hm : q.mgr.slot c = none
    · exact ⟨_, _, _, hu, (by simpa using SubThread.given_ne hn none), .miss hu hn hno hm⟩
    · exact ⟨_, _, _, hu, (by simp), .share hu hn hno hm⟩
  | @innerLock m u c i hu hn hno =>
    obtain rfl := hat hch
    rw [← hq] at hu hno
    exact ⟨_, _, _, hu, (by simp), .innerLock hu hn hno⟩
  | innerDraft => exact absurd rfl hch
  | @innerCommit m u c i x hu =>
    obtain rfl := hat hch
    rw [← hq] at hu
    exact ⟨_, _, _, hu, (by simp), .innerCommit hu⟩
  | @innerShare m u c i hu hn hno =>
    obtain rfl := hat hch
    rw [← hq] at hu hno
    exact ⟨_, _, _, hu, (by simp), .innerShare hu hn hno⟩
  | @innerRelease m u c i x hu =>
    obtain rfl := hat hch
    rw [← hq] at hu
    exact ⟨_, _, _, hu, (by simp), .innerRelease hu⟩
  | @release m u c hu =>
    obtain rfl := hat hch
    rw [← hq] at hu
    exact ⟨_, _, _, hu, (by simp), .release hu⟩
  | @close m xs hu =>
    obtain rfl := hat hch
    rw [← hq] at hu
    refine ⟨_, _, _, hu, ?_, .close hu⟩
    cases xs <;> simp [SubThread.step]

/-- An infinite execution of these calls in which no thread that can go on is passed over for ever. -/
structure Spec.SubFairRun (L : SubLocks) (calls : List SubCall) (run : Nat → PPool) : Prop where
  start : run 0 = subWaiting calls
  steps : ∀ n, run (n + 1) = run n ∨ PStep L (run n) (run (n + 1))
  fair : ∀ (i m : Nat), ∃ n, m ≤ n ∧ (¬ SubMoves L (run n) i ∨ (run (n + 1)).threads[i]? ≠ (run n).threads[i]?)

/-- C166: if no call that can go on is passed over for ever, all calls return. -/
theorem C166_all_return (L : SubLocks) (calls : List SubCall) (run : Nat → PPool) (h : SubFairRun L calls run) :
    ∃ N, ∀ n, N ≤ n → ∀ t ∈ (run n).threads, ∃ t', t = .ready t' ∧ SubDone t' := by
  have hreach : ∀ n, PSteps L (subWaiting calls) (run n) := by
    intro n
    induction n with
    | zero => rw [h.start]; exact .refl
    | succ n ih =>
      rcases h.steps n with e | e
      · rw [e]; exact ih
      · exact .tail ih e
  obtain ⟨N, hN⟩ := settles (r := OneOf PLater) (fun n => (run n).threads) (OneOf.acc PLater.acc _) (by
    intro n
    rcases h.steps n with e | e
    · left; show (run (n + 1)).threads = _; rw [e]
    · exact e.later (subCovers_exec (hreach n)).1)
  refine ⟨N, fun n hn t ht => Classical.byContradiction fun hne => ?_⟩
  obtain ⟨i, hi⟩ := List.getElem?_of_mem ht
  rcases C166_no_deadlock L calls (run n) (hreach n) i t hi with h1 | ⟨d, -, h1⟩
  · exact hne h1
  · obtain ⟨j, hj⟩ := SubLeads.someone h1
    have hth : ∀ k, N ≤ k → (run k).threads = (run n).threads := fun k hk => (hN k hk).trans (hN n hn).symm
    obtain ⟨k, hk, h2 | h2⟩ := h.fair j N
    · exact h2 (subMoves_threads (hth k hk) hj)
    · exact h2 (by rw [hth (k + 1) (by omega), hth k hk])

/-! ## Concrete cases -/

/-- Everything has its own lock, as far as these keys and sessions go. -/
private def fineLocks : SubLocks where
  session s := s.toNat
  key k := k.length
  inner := fun
    | .session _, k => k.length
    | .key _, s => s.toNat

/-- Beside C165: session 7 subscribes (its entry is garbage for a while), then two sessions unsubscribe from the key at the
same time, each with its own lock of the key's set; session 7 is put back for a moment by its half-done removal. -/
example : ∃ p, PSteps fineLocks (subWaiting [.op (.subscribe [1] 7), .op (.unsubscribe [1] 7), .op (.unsubscribe [1] 8)]) p ∧
    p.threads = [.ready (.subscribed (some 0)), .ready (.unsubscribed true), .ready (.unsubscribed false)] ∧
    p.mgr.keys [1] = some [] ∧ p.mgr.sessions 7 = some [] := by
  have none_of : ∀ {l : List PThread} {c : Slot}, (l.all fun t => t.holds.all fun c' => decide (fineLocks.of c' ≠ fineLocks.of c)) = true →
      ∀ (j : Nat) t', l[j]? = some t' → ∀ c' ∈ t'.holds, fineLocks.of c' ≠ fineLocks.of c := by
    intro l c h j t' hj c' hc'
    rw [List.all_eq_true] at h
    have := h t' (List.mem_of_getElem? hj)
    rw [List.all_eq_true] at this
    exact of_decide_eq_true (this c' hc')
  have none_owns : ∀ {l : List PThread} {c : Slot}, (l.all fun t => t.owns.all fun c' => decide (fineLocks.of c' ≠ fineLocks.of c)) = true →
      ∀ (j : Nat) t', l[j]? = some t' → ∀ c' ∈ t'.owns, fineLocks.of c' ≠ fineLocks.of c := by
    intro l c h j t' hj c' hc'
    rw [List.all_eq_true] at h
    have := h t' (List.mem_of_getElem? hj)
    rw [List.all_eq_true] at this
    exact of_decide_eq_true (this c' hc')
  have none_inner : ∀ {l : List PThread} {c : Slot} {i : c.Idx}, (l.all fun t => match t.holdsInner with
        | some ⟨c', i'⟩ => decide (c' ≠ c) || decide (fineLocks.inner c' i' ≠ fineLocks.inner c i)
        | none => true) = true →
      ∀ (j : Nat) t' i', l[j]? = some t' → t'.holdsInner = some ⟨c, i'⟩ → fineLocks.inner c i' ≠ fineLocks.inner c i := by
    intro l c i h j t' i' hj hh
    rw [List.all_eq_true] at h
    have := h t' (List.mem_of_getElem? hj)
    rw [hh] at this
    simpa using this
  have h1 := PSteps.tail (.refl (L := fineLocks) (p := subWaiting [.op (.subscribe [1] 7), .op (.unsubscribe [1] 7), .op (.unsubscribe [1] 8)]))
    (.lock (n := 0) (c := .session 7) rfl rfl (none_of (by decide)))
  have h2 := PSteps.tail h1 (.draft (n := 0) (c := .session 7) (some [([9], 9)]) rfl)
  have h3 := PSteps.tail h2 (.commit (n := 0) (c := .session 7) rfl)
  have h4 := PSteps.tail h3 (.lock (n := 0) (c := .key [1]) rfl rfl (none_of (by decide)))
  have h5 := PSteps.tail h4 (.commit (n := 0) (c := .key [1]) rfl)
  have h6 := PSteps.tail h5 (.share (n := 1) (c := .key [1]) (i := 7) rfl (.inl rfl) (none_owns (by decide)) (by decide))
  have h7 := PSteps.tail h6 (.share (n := 2) (c := .key [1]) (i := 8) rfl (.inl rfl) (none_owns (by decide)) (by decide))
  have h8 := PSteps.tail h7 (.innerLock (n := 1) (c := .key [1]) (i := 7) rfl rfl (none_inner (by decide)))
  have h9 := PSteps.tail h8 (.innerDraft (n := 1) (c := .key [1]) (i := 7) [] rfl (by decide))
  have h10 := PSteps.tail h9 (.innerLock (n := 2) (c := .key [1]) (i := 8) rfl rfl (none_inner (by decide)))
  have h11 := PSteps.tail h10 (.innerDraft (n := 1) (c := .key [1]) (i := 7) [7] rfl (by decide))
  have h12 := PSteps.tail h11 (.innerCommit (n := 2) (c := .key [1]) (i := 8) rfl)
  have h13 := PSteps.tail h12 (.innerCommit (n := 1) (c := .key [1]) (i := 7) rfl)
  have h14 := PSteps.tail h13 (.release (n := 1) (c := .key [1]) rfl)
  have h15 := PSteps.tail h14 (.release (n := 2) (c := .key [1]) rfl)
  have h16 := PSteps.tail h15 (.miss (n := 2) (c := .session 8) (i := [1]) rfl (.inl rfl) (none_owns (by decide)) (by decide))
  have h17 := PSteps.tail h16 (.share (n := 1) (c := .session 7) (i := [1]) rfl (.inl rfl) (none_owns (by decide)) (by decide))
  have h18 := PSteps.tail h17 (.innerLock (n := 1) (c := .session 7) (i := [1]) rfl rfl (none_inner (by decide)))
  have h19 := PSteps.tail h18 (.innerCommit (n := 1) (c := .session 7) (i := [1]) rfl)
  have h20 := PSteps.tail h19 (.release (n := 1) (c := .session 7) rfl)
  exact ⟨_, h20, rfl, by decide, by decide⟩

/-- One call, which finds nothing. -/
private def alone : Nat → PPool
  | 0 => subWaiting [.get [1] 7]
  | _ + 1 => { threads := [.ready (.got none)], mgr := .new }

/-- Beside C166: a fair execution. -/
example : SubFairRun fineLocks [.get [1] 7] alone := by
  refine ⟨rfl, ?_, ?_⟩
  · intro n
    cases n with
    | zero =>
      right
      refine PStep.miss (n := 0) (t := .get [1] 7) (c := .session 7) (i := [1]) rfl (.inr rfl) ?_ rfl
      intro j t' hj c' hc'
      cases j with
      | zero => cases hj; cases hc'
      | succ j => cases hj
    | succ n => exact .inl rfl
  · intro i m
    refine ⟨m + 1, by omega, .inl ?_⟩
    rintro ⟨t, t', m', ht, hne, hs⟩
    have hi : SubLockInv fineLocks (alone (m + 1)) := by
      have hone : ∀ (n : Nat) t, (alone (m + 1)).threads[n]? = some t → t = .ready (.got none) := by
        intro n t h
        cases n with
        | zero => cases h; rfl
        | succ n => cases h
      refine ⟨?_, ?_, ?_, ?_⟩
      · intro n j t t' c c' _ hn _ hc
        rw [hone n t hn] at hc; cases hc
      · intro n j t t' c i i' _ hn _ hc
        rw [hone n t hn] at hc; cases hc
      · intro n t c hn hc
        rw [hone n t hn] at hc; cases hc
      · intro n t hn
        rw [hone n t hn]; trivial
    rcases hs.later hi with e | e
    · have hil := (List.getElem?_eq_some_iff.mp ht).1
      have : ((alone (m + 1)).threads.set i t')[i]? = some t' := List.getElem?_set_self hil
      rw [show (alone (m + 1)).threads.set i t' = (alone (m + 1)).threads from e, ht] at this
      cases this
      exact hne rfl
    · have : (alone (m + 1)).threads = [.ready (.got none)] := rfl
      dsimp only at e
      rw [this] at e
      cases i with
      | zero =>
        simp only [List.set_cons_zero] at e
        cases e with
        | head h =>
          have h : Prod.Lex (· < ·) (· < ·) t'.weight (0, 0) := h
          generalize t'.weight = w at h
          obtain ⟨a, b⟩ := w
          rcases Prod.lex_def.mp h with h | ⟨-, h⟩
          · exact absurd h (by simp)
          · exact absurd h (by simp)
        | tail h => cases h
      | succ i => cases ht

end Hop
