import Verif.Spec.MetricsThreads
import Verif.Lemmas.Lists

/-! # C119, C120, C121: metrics used by several threads -/

namespace Hop

open Spec

variable {T : Type} [DecidableEq T] {mode : Mode} {shards : Nat} {shard : T → Nat}

/-- What a step of a thread does. -/
inductive MStep (mode : Mode) (shards : Nat) (shard : T → Nat) (p : MetricPool T) (i : Nat) :
    MetricThread T → MetricPool T → Prop where
  | valid : MStep mode shards shard p i (.calling .valid)
      { p with threads := p.threads.set i (.returned .valid (.bool (decide (0 < p.strong)))) }
  | copy : p.owned = true → MStep mode shards shard p i (.calling .snapshot)
      { p with threads := p.threads.set i (.copying 0 ⟨fun _ => none, fun _ => none⟩) }
  | drop : p.owned = true → (∀ th ∈ p.threads, th.borrows = false) → MStep mode shards shard p i (.calling .drop)
      { p with threads := p.threads.set i (.returned .drop .unit), owned := false, strong := p.strong - 1 }
  | lose (c : MetricCall T) : c ≠ .valid → c ≠ .snapshot → c ≠ .drop → p.strong = 0 →
      MStep mode shards shard p i (.calling c) { p with threads := p.threads.set i (.returned c c.lost) }
  | take (c : MetricCall T) : c ≠ .valid → c ≠ .snapshot → c ≠ .drop → p.strong ≠ 0 →
      MStep mode shards shard p i (.calling c) { p with threads := p.threads.set i (.holding c), strong := p.strong + 1 }
  | work (c : MetricCall T) : MStep mode shards shard p i (.holding c)
      { p with threads := p.threads.set i (.leaving c (c.work mode p.maps).1), maps := (c.work mode p.maps).2 }
  | leave (c : MetricCall T) (r : MetricAnswer T) : MStep mode shards shard p i (.leaving c r)
      { p with threads := p.threads.set i (.returned c r), strong := p.strong - 1 }
  | more (n : Nat) (s : MetricMap T) : n < 2 * shards → MStep mode shards shard p i (.copying n s)
      { p with threads := p.threads.set i (.copying (n + 1) (copyShard shards shard n p.maps s)) }
  | copied (n : Nat) (s : MetricMap T) : ¬ n < 2 * shards → MStep mode shards shard p i (.copying n s)
      { p with threads := p.threads.set i (.returned .snapshot (.snap s)) }

theorem mstep_cases (mode : Mode) (shards : Nat) (shard : T → Nat) (p : MetricPool T) (i : Nat) :
    p.stepAt mode shards shard i = p ∨
      ∃ t, p.threads[i]? = some t ∧ MStep mode shards shard p i t (p.stepAt mode shards shard i) := by
  unfold MetricPool.stepAt
  split
  · next h => exact .inr ⟨_, h, .valid⟩
  · next h =>
    split
    · next ho => exact .inr ⟨_, h, .copy ho⟩
    · exact .inl rfl
  · next h =>
    split
    · next ho => exact .inr ⟨_, h, .drop (by simp at ho; exact ho.1) (by simp at ho; exact ho.2)⟩
    · exact .inl rfl
  · next c h1 h2 h3 h =>
    split
    · next hs => exact .inr ⟨_, h, .lose c h1 h2 h3 hs⟩
    · next hs => exact .inr ⟨_, h, .take c h1 h2 h3 hs⟩
  · next h => exact .inr ⟨_, h, .work _⟩
  · next h => exact .inr ⟨_, h, .leave _ _⟩
  · next h =>
    split
    · next hn => exact .inr ⟨_, h, .more _ _ hn⟩
    · next hn => exact .inr ⟨_, h, .copied _ _ hn⟩
  · exact .inl rfl

theorem mexec_append (p : MetricPool T) (a b : List Nat) :
    p.exec mode shards shard (a ++ b) = (p.exec mode shards shard a).exec mode shards shard b := by
  simp [MetricPool.exec]

theorem mexec_snoc (p : MetricPool T) (a : List Nat) (i : Nat) :
    p.exec mode shards shard (a ++ [i]) = (p.exec mode shards shard a).stepAt mode shards shard i := by
  simp [MetricPool.exec]

theorem mcount_set {α : Type} (f : α → Bool) (l : List α) (i : Nat) (a b : α) (h : l[i]? = some b) :
    (l.set i a).countP f + (if f b then 1 else 0) = l.countP f + (if f a then 1 else 0) := by
  induction l generalizing i with
  | nil => simp at h
  | cons x l ih =>
    cases i with
    | zero =>
      simp at h
      subst h
      simp only [List.set_cons_zero, List.countP_cons]
      omega
    | succ i =>
      simp at h
      have := ih i h
      simp only [List.set_cons_succ, List.countP_cons]
      omega

/-- `Underway` as a test. -/
def inCall : MetricThread T → Bool
  | .holding _ | .leaving _ _ => true
  | _ => false

omit [DecidableEq T] in
theorem inCall_iff (th : MetricThread T) : inCall th = true ↔ Underway th := by cases th <;> simp [inCall, Underway]

theorem strong_step (p : MetricPool T) (i : Nat) (h : p.strong = p.owned.toNat + p.threads.countP inCall) :
    (p.stepAt mode shards shard i).strong =
      (p.stepAt mode shards shard i).owned.toNat + (p.stepAt mode shards shard i).threads.countP inCall := by
  rcases mstep_cases mode shards shard p i with e | ⟨t, ht, hs⟩
  · rw [e]; exact h
  · have hc := fun a => mcount_set inCall p.threads i a t ht
    generalize p.stepAt mode shards shard i = q at hs
    cases hs with
    | valid => have := hc (.returned .valid (.bool (decide (0 < p.strong)))); simp [inCall] at this ⊢; omega
    | copy _ => have := hc (.copying 0 ⟨fun _ => none, fun _ => none⟩); simp [inCall] at this ⊢; omega
    | drop ho _ => have := hc (.returned .drop .unit); simp [inCall] at this ⊢; simp [ho] at h; omega
    | lose c _ _ _ _ => have := hc (.returned c c.lost); simp [inCall] at this ⊢; omega
    | take c _ _ _ _ => have := hc (.holding c); simp [inCall] at this ⊢; omega
    | work c => have := hc (.leaving c (c.work mode p.maps).1); simp [inCall] at this ⊢; omega
    | leave c r => have := hc (.returned c r); simp [inCall] at this ⊢; omega
    | more n s _ => have := hc (.copying (n + 1) (copyShard shards shard n p.maps s)); simp [inCall] at this ⊢; omega
    | copied n s _ => have := hc (.returned .snapshot (.snap s)); simp [inCall] at this ⊢; omega

theorem strong_inv (calls : List (MetricCall T)) (sched : List Nat) :
    let p := (MetricPool.start calls).exec mode shards shard sched
    p.strong = p.owned.toNat + p.threads.countP inCall := by
  induction sched using snoc_ind with
  | h0 =>
    have : (calls.map MetricThread.calling).countP (inCall (T := T)) = 0 := by
      rw [List.countP_eq_zero]; intro th hth; obtain ⟨c, _, rfl⟩ := List.mem_map.mp hth; simp [inCall]
    simp [MetricPool.exec, MetricPool.start, this]
  | h1 s i ih => dsimp only; rw [mexec_snoc]; exact strong_step _ _ ih

/-- The maps can be reached at a moment exactly if the instance exists or some call is under way. -/
theorem alive_iff (calls : List (MetricCall T)) (sched : List Nat) :
    let p := (MetricPool.start calls).exec mode shards shard sched
    0 < p.strong ↔ p.owned = true ∨ ∃ th ∈ p.threads, Underway th := by
  dsimp only
  rw [strong_inv calls sched]
  constructor
  · intro h
    by_cases ho : ((MetricPool.start calls).exec mode shards shard sched).owned = true
    · exact .inl ho
    · simp at ho
      rw [ho] at h
      simp only [Bool.toNat_false, Nat.zero_add] at h
      rw [List.countP_pos_iff] at h
      obtain ⟨th, hm, ht⟩ := h
      exact .inr ⟨th, hm, (inCall_iff th).mp ht⟩
  · rintro (h | ⟨th, hm, ht⟩)
    · rw [h]; simp; omega
    · have : 0 < ((MetricPool.start calls).exec mode shards shard sched).threads.countP inCall :=
        List.countP_pos_iff.mpr ⟨th, hm, (inCall_iff th).mpr ht⟩
      omega

/-- The thread has carried out an increment. -/
def hasCounted (t : T) : MetricThread T → Bool
  | .leaving (.increment t') (.bool true) => t' = t
  | .returned (.increment t') (.bool true) => t' = t
  | _ => false

/-- The increments that have been carried out. -/
def applied (t : T) (p : MetricPool T) : Nat := p.threads.countP (hasCounted t)

theorem countP_le_add {α : Type} (f g h : α → Bool) (l : List α) (hh : ∀ a, f a = true → g a = true ∨ h a = true) :
    l.countP f ≤ l.countP g + l.countP h := by
  induction l with
  | nil => simp
  | cons a l ih =>
    simp only [List.countP_cons]
    have := hh a
    by_cases h1 : f a = true
    · rcases this h1 with h2 | h2 <;> simp [h1, h2] <;> split <;> omega
    · simp [h1]; omega

theorem done_le_applied (t : T) (p : MetricPool T) : incrementsDone t p ≤ applied t p := by
  unfold incrementsDone applied
  apply List.countP_mono_left
  intro th _ h
  split at h <;> simp_all [hasCounted]

theorem applied_le (t : T) (p : MetricPool T) : applied t p ≤ incrementsDone t p + incrementsOpen t p := by
  unfold incrementsDone incrementsOpen applied
  apply countP_le_add
  intro th h
  unfold hasCounted at h
  split at h <;> simp_all

theorem counterShows_next (mode : Mode) (n : Nat) (hn : mode = .debug → n ≤ 2 ^ 64 - 1) :
    (addU mode 64 ((counterShows mode n).getD 0) 1 = none →
      some ((counterShows mode n).getD 0) = counterShows mode n) ∧
    ∀ v, addU mode 64 ((counterShows mode n).getD 0) 1 = some v →
      some v = counterShows mode (n + 1) ∧ (mode = .debug → n + 1 ≤ 2 ^ 64 - 1) := by
  cases mode with
  | debug =>
    have hn := hn rfl
    unfold counterShows addU
    by_cases h0 : n = 0
    · subst h0; simp
    · simp only [h0, if_false, Option.getD_some, Nat.add_eq_zero_iff, false_and, Nat.min_eq_left hn]
      refine ⟨fun _ => trivial, fun v hv => ?_⟩
      split at hv
      · next hlt =>
        have hle : n + 1 ≤ 2 ^ 64 - 1 := by omega
        injection hv with hv
        exact ⟨by rw [Nat.min_eq_left hle, hv], fun _ => hle⟩
      · simp at hv
  | release =>
    unfold counterShows addU
    by_cases h0 : n = 0
    · subst h0; simp
    · simp only [h0, if_false, Option.getD_some, Nat.add_eq_zero_iff, false_and]
      refine ⟨fun _ => trivial, fun v hv => ⟨?_, by simp⟩⟩
      split at hv
      · injection hv with hv; rw [← hv]; congr 1; omega
      · injection hv with hv; rw [← hv]; congr 1; omega

/-- The invariant of counters. -/
def Counted (mode : Mode) (t : T) (p : MetricPool T) : Prop :=
  p.maps.counters t = counterShows mode (applied t p) ∧ (mode = .debug → applied t p ≤ 2 ^ 64 - 1)

theorem counted_step (t : T) (p : MetricPool T) (i : Nat) (h : Counted mode t p) :
    Counted mode t (p.stepAt mode shards shard i) ∧ applied t p ≤ applied t (p.stepAt mode shards shard i) := by
  rcases mstep_cases mode shards shard p i with e | ⟨th, ht, hs⟩
  · rw [e]; exact ⟨h, Nat.le_refl _⟩
  · have hc := fun a => mcount_set (hasCounted t) p.threads i a th ht
    obtain ⟨h1, h2⟩ := h
    generalize p.stepAt mode shards shard i = q at hs
    have same : ∀ q : MetricPool T, q.maps.counters t = p.maps.counters t → applied t q = applied t p →
        Counted mode t q ∧ applied t p ≤ applied t q := fun q e1 e2 =>
      ⟨⟨by rw [e1, e2]; exact h1, by rw [e2]; exact h2⟩, by omega⟩
    cases hs with
    | valid => exact same _ rfl (by have := hc (.returned .valid (.bool (decide (0 < p.strong)))); simpa [applied, hasCounted, MetricCall.work] using this)
    | copy _ => exact same _ rfl (by have := hc (.copying 0 ⟨fun _ => none, fun _ => none⟩); simpa [applied, hasCounted, MetricCall.work] using this)
    | drop ho _ => exact same _ rfl (by have := hc (.returned .drop .unit); simpa [applied, hasCounted, MetricCall.work] using this)
    | lose c _ _ _ _ =>
      exact same _ rfl (by have := hc (.returned c c.lost); cases c <;> simpa [applied, hasCounted, MetricCall.lost] using this)
    | take c _ _ _ _ => exact same _ rfl (by have := hc (.holding c); simpa [applied, hasCounted, MetricCall.work] using this)
    | leave c r =>
      refine same _ rfl ?_
      have := hc (.returned c r)
      have e : hasCounted t (.returned c r) = hasCounted t (.leaving c r) := by unfold hasCounted; split <;> simp_all
      rw [e] at this
      simp only [applied]
      omega
    | more n s _ =>
      exact same _ rfl (by
        have := hc (.copying (n + 1) (copyShard shards shard n p.maps s)); simpa [applied, hasCounted, MetricCall.work] using this)
    | copied n s _ => exact same _ rfl (by have := hc (.returned .snapshot (.snap s)); simpa [applied, hasCounted, MetricCall.work] using this)
    | work c =>
      cases c with
      | increment t' =>
        have := hc (.leaving (.increment t') (MetricCall.work mode p.maps (.increment t')).1)
        by_cases e : t' = t
        · subst e
          have hn := counterShows_next mode (applied t' p) h2
          rw [← h1] at hn
          cases ha : addU mode 64 ((p.maps.counters t').getD 0) 1 with
          | none =>
            simp [MetricCall.work, ha, hasCounted] at this ⊢
            exact same _ (by simp [MetricMap.setCounter]; rw [hn.1 ha]) (by simpa [applied, hasCounted, MetricCall.work] using this)
          | some v =>
            obtain ⟨n1, n2⟩ := hn.2 v ha
            simp [MetricCall.work, ha, hasCounted] at this ⊢
            have ea : applied t' { p with
                threads := p.threads.set i (.leaving (.increment t') (.bool true)), maps := p.maps.setCounter t' v } =
                applied t' p + 1 := by simpa [applied, hasCounted, MetricCall.work] using this
            refine ⟨⟨?_, ?_⟩, by omega⟩
            · rw [ea]; simp [MetricMap.setCounter]; exact n1
            · rw [ea]; exact n2
        · refine same _ ?_ ?_
          · simp only [MetricCall.work]
            split <;> simp [MetricMap.setCounter, Ne.symm e]
          · have hf : ∀ r, hasCounted t (.leaving (.increment t') r) = false := by
              intro r; unfold hasCounted; split <;> simp_all
            rw [hf] at this
            simpa [applied, hasCounted] using this
      | gauge t' v => exact same _ rfl (by have := hc (.leaving (.gauge t' v) (.bool true)); simpa [applied, hasCounted, MetricCall.work] using this)
      | readCounter t' =>
        exact same _ rfl (by have := hc (.leaving (.readCounter t') (.count (p.maps.counters t'))); simpa [applied, hasCounted, MetricCall.work] using this)
      | readGauge t' =>
        exact same _ rfl (by have := hc (.leaving (.readGauge t') (.level (p.maps.gauges t'))); simpa [applied, hasCounted, MetricCall.work] using this)
      | valid => exact same _ rfl (by have := hc (.leaving .valid .unit); simpa [applied, hasCounted, MetricCall.work] using this)
      | snapshot => exact same _ rfl (by have := hc (.leaving .snapshot .unit); simpa [applied, hasCounted, MetricCall.work] using this)
      | drop => exact same _ rfl (by have := hc (.leaving .drop .unit); simpa [applied, hasCounted, MetricCall.work] using this)

theorem counted_start (t : T) (calls : List (MetricCall T)) : Counted mode t (MetricPool.start calls) := by
  have : applied t (MetricPool.start calls) = 0 := by
    unfold applied MetricPool.start
    rw [List.countP_eq_zero]
    intro th hth
    obtain ⟨c, _, rfl⟩ := List.mem_map.mp hth
    simp [hasCounted]
  exact ⟨by rw [this]; rfl, by rw [this]; simp⟩

theorem counted_exec (t : T) (p : MetricPool T) (sched : List Nat) (h : Counted mode t p) :
    Counted mode t (p.exec mode shards shard sched) ∧ applied t p ≤ applied t (p.exec mode shards shard sched) := by
  induction sched using snoc_ind with
  | h0 => exact ⟨h, Nat.le_refl _⟩
  | h1 s i ih =>
    rw [mexec_snoc]
    have := counted_step (shards := shards) (shard := shard) t _ i ih.1
    exact ⟨this.1, Nat.le_trans ih.2 this.2⟩

/-- Where a thread that was about to make the call `c` may be after `sched`: its answer is from a moment in between. -/
def Stage (mode : Mode) (shards : Nat) (shard : T → Nat) (p : MetricPool T) (c : MetricCall T) (sched : List Nat)
    (th : MetricThread T) : Prop :=
  th = .calling c ∨ (c ≠ .valid ∧ th = .holding c) ∨
  (∃ mid rest, sched = mid ++ rest ∧ c ≠ .valid ∧ ∃ r, r = (c.work mode (p.exec mode shards shard mid).maps).1 ∧
    (th = .leaving c r ∨ th = .returned c r)) ∨
  (∃ mid rest, sched = mid ++ rest ∧ c ≠ .valid ∧ (p.exec mode shards shard mid).strong = 0 ∧ th = .returned c c.lost) ∨
  (∃ mid rest, sched = mid ++ rest ∧ c = .valid ∧
    th = .returned .valid (.bool (decide (0 < (p.exec mode shards shard mid).strong))))

theorem mstep_other (p : MetricPool T) (i j : Nat) (h : i ≠ j) :
    (p.stepAt mode shards shard i).threads[j]? = p.threads[j]? := by
  rcases mstep_cases mode shards shard p i with e | ⟨th, ht, hs⟩
  · rw [e]
  · generalize p.stepAt mode shards shard i = q at hs
    cases hs <;> simp [List.getElem?_set_ne h]

theorem stage_exec (p : MetricPool T) (i : Nat) (c : MetricCall T) (hc : c ≠ .snapshot) (hd : c ≠ .drop)
    (hi : p.threads[i]? = some (.calling c)) (sched : List Nat) :
    ∃ th, (p.exec mode shards shard sched).threads[i]? = some th ∧ Stage mode shards shard p c sched th := by
  induction sched using snoc_ind with
  | h0 => exact ⟨_, hi, .inl rfl⟩
  | h1 s j ih =>
    obtain ⟨th, ht, hs⟩ := ih
    have grow : Stage mode shards shard p c (s ++ [j]) th := by
      rcases hs with h | h | ⟨mid, rest, e, h⟩ | ⟨mid, rest, e, h⟩ | ⟨mid, rest, e, h⟩
      · exact .inl h
      · exact .inr (.inl h)
      · exact .inr (.inr (.inl ⟨mid, rest ++ [j], by rw [e, List.append_assoc], h⟩))
      · exact .inr (.inr (.inr (.inl ⟨mid, rest ++ [j], by rw [e, List.append_assoc], h⟩)))
      · exact .inr (.inr (.inr (.inr ⟨mid, rest ++ [j], by rw [e, List.append_assoc], h⟩)))
    rw [mexec_snoc]
    by_cases hj : j = i
    · subst hj
      rcases mstep_cases mode shards shard (p.exec mode shards shard s) j with e | ⟨th', ht', hst⟩
      · rw [e]; exact ⟨th, ht, grow⟩
      · have e : th' = th := by rw [ht] at ht'; injection ht' with ht'; exact ht'.symm
        subst e
        have hlt := (List.getElem?_eq_some_iff.mp ht).1
        generalize (p.exec mode shards shard s).stepAt mode shards shard j = q at hst
        rcases hs with h | ⟨hv, h⟩ | ⟨mid, rest, e, hv, r, hr, h | h⟩ | ⟨mid, rest, e, hv, h0, h⟩ | ⟨mid, rest, e, hv, h⟩
        · subst h
          cases hst with
          | valid =>
            exact ⟨_, by simp [List.getElem?_set_self hlt], .inr (.inr (.inr (.inr ⟨s, [j], rfl, rfl, rfl⟩)))⟩
          | copy _ => exact absurd rfl hc
          | drop _ _ => exact absurd rfl hd
          | lose c h1 _ _ h0 =>
            exact ⟨_, by simp [List.getElem?_set_self hlt], .inr (.inr (.inr (.inl ⟨s, [j], rfl, h1, h0, rfl⟩)))⟩
          | take c h1 _ _ _ => exact ⟨_, by simp [List.getElem?_set_self hlt], .inr (.inl ⟨h1, rfl⟩)⟩
        · subst h
          cases hst with
          | work c =>
            exact ⟨_, by simp [List.getElem?_set_self hlt],
              .inr (.inr (.inl ⟨s, [j], rfl, hv, _, rfl, .inl rfl⟩))⟩
        · subst h
          cases hst with
          | leave c r =>
            exact ⟨_, by simp [List.getElem?_set_self hlt],
              .inr (.inr (.inl ⟨mid, rest ++ [j], by rw [e, List.append_assoc], hv, _, hr, .inr rfl⟩))⟩
        · subst h; cases hst
        · subst h; cases hst
        · subst h; cases hst
    · rw [mstep_other _ _ _ hj]
      exact ⟨th, ht, grow⟩

/-- **C119 as one would want it:** once the instance has been dropped, every call of a reader or writer made afterwards
says so. -/
def C119_Statement : Prop :=
  ∀ (T : Type) (_ : DecidableEq T) (mode : Mode) (shards : Nat) (shard : T → Nat) (calls : List (MetricCall T))
    (before after : List Nat) (i : Nat) (c : MetricCall T) (r : MetricAnswer T),
    let p := (MetricPool.start calls).exec mode shards shard before
    p.owned = false → p.threads[i]? = some (.calling c) →
    (p.exec mode shards shard after).threads[i]? = some (.returned c r) → Refused c r

/-- C119 fails: a call that is under way when the instance is dropped keeps the maps, and meanwhile other calls succeed:
here an increment, made after the drop, answers `true`. -/
theorem C119_false : ¬ C119_Statement := by
  intro h
  have := h Nat inferInstance .release 1 (fun _ => 0) [.increment 0, .drop, .increment 0] [0, 1] [2, 2, 2] 2 (.increment 0)
    (.bool true) rfl rfl rfl
  simp [Refused] at this

/-- Once there is no way to the maps, there never is again. -/
theorem dead_exec (p : MetricPool T) (h0 : p.strong = 0) (ho : p.owned = false) (hu : ∀ th ∈ p.threads, ¬ Underway th)
    (sched : List Nat) :
    let q := p.exec mode shards shard sched
    q.strong = 0 ∧ q.owned = false ∧ ∀ th ∈ q.threads, ¬ Underway th := by
  induction sched using snoc_ind with
  | h0 => exact ⟨h0, ho, hu⟩
  | h1 s i ih =>
    dsimp only
    rw [mexec_snoc]
    dsimp only at ih
    generalize p.exec mode shards shard s = p' at ih
    obtain ⟨h1, h2, h3⟩ := ih
    rcases mstep_cases mode shards shard p' i with e | ⟨th, ht, hs⟩
    · rw [e]; exact ⟨h1, h2, h3⟩
    · have hm := List.mem_of_getElem? ht
      generalize p'.stepAt mode shards shard i = q at hs
      have set : ∀ a : MetricThread T, ¬ Underway a → ∀ th ∈ p'.threads.set i a, ¬ Underway th := by
        intro a ha th hth
        rcases List.mem_or_eq_of_mem_set hth with h | h
        · exact h3 th h
        · rw [h]; exact ha
      cases hs with
      | valid => exact ⟨h1, h2, set _ (by simp [Underway])⟩
      | copy h => rw [h2] at h; simp at h
      | drop h _ => rw [h2] at h; simp at h
      | lose c _ _ _ _ => exact ⟨h1, h2, set _ (by simp [Underway])⟩
      | take c _ _ _ h => exact absurd h1 h
      | work c => exact absurd (by simp [Underway]) (h3 _ hm)
      | leave c r => exact absurd (by simp [Underway]) (h3 _ hm)
      | more n s _ => exact ⟨h1, h2, set _ (by simp [Underway])⟩
      | copied n s _ => exact ⟨h1, h2, set _ (by simp [Underway])⟩

/-- C119, what holds: if no call is under way when the instance is gone, every later call of a reader or writer says so,
whatever threads do. Missing: calls made while one that began before the drop is under way. -/
theorem C119_dropped_partial (calls : List (MetricCall T)) (before after : List Nat) (i : Nat) (c : MetricCall T)
    (r : MetricAnswer T) (ho : ((MetricPool.start calls).exec mode shards shard before).owned = false)
    (hu : ∀ th ∈ ((MetricPool.start calls).exec mode shards shard before).threads, ¬ Underway th)
    (hi : ((MetricPool.start calls).exec mode shards shard before).threads[i]? = some (.calling c))
    (hr : ((MetricPool.start calls).exec mode shards shard (before ++ after)).threads[i]? = some (.returned c r)) :
    Refused c r := by
  have hz : ((MetricPool.start calls).exec mode shards shard before).strong = 0 := by
    have := (alive_iff (mode := mode) (shards := shards) (shard := shard) calls before)
    dsimp only at this
    rw [ho] at this
    have hn : ¬ 0 < ((MetricPool.start calls).exec mode shards shard before).strong := by
      rw [this]; simp only [Bool.false_eq_true, false_or]; rintro ⟨th, hm, h⟩; exact hu th hm h
    omega
  rw [mexec_append] at hr
  by_cases hs : c = .snapshot
  · subst hs; simp [Refused]
  by_cases hd : c = .drop
  · subst hd; simp [Refused]
  generalize (MetricPool.start calls).exec mode shards shard before = p at *
  have hdead := fun s => dead_exec (mode := mode) (shards := shards) (shard := shard) p hz ho hu s
  have hne : ∀ s, (p.exec mode shards shard s).strong = 0 := fun s => (hdead s).1
  -- a thread of this pool never holds the maps
  have key : ∀ s, (p.exec mode shards shard s).threads[i]? = some (.calling c) ∨
      ∃ r, Refused c r ∧ (p.exec mode shards shard s).threads[i]? = some (.returned c r) := by
    intro s
    induction s using snoc_ind with
    | h0 => exact .inl hi
    | h1 s j ih =>
      rw [mexec_snoc]
      by_cases hj : j = i
      · subst hj
        rcases mstep_cases mode shards shard (p.exec mode shards shard s) j with e | ⟨th, ht, hst⟩
        · rw [e]; exact ih
        · have hlt := (List.getElem?_eq_some_iff.mp ht).1
          rcases ih with h | ⟨r', hr', h⟩
          · rw [h] at ht
            injection ht with ht
            subst ht
            have hz' := hne s
            generalize (p.exec mode shards shard s).stepAt mode shards shard j = q at hst
            cases hst with
            | valid =>
              exact .inr ⟨.bool false, by simp [Refused], by simp [List.getElem?_set_self hlt, hz']⟩
            | copy _ => exact absurd rfl hs
            | drop _ _ => exact absurd rfl hd
            | lose c h1 h2 h3 _ =>
              refine .inr ⟨c.lost, ?_, by simp [List.getElem?_set_self hlt]⟩
              cases c <;> simp_all [Refused, MetricCall.lost]
            | take c _ _ _ h => exact absurd hz' h
          · rw [h] at ht
            injection ht with ht
            subst ht
            cases hst
      · rw [mstep_other _ _ _ hj]; exact ih
  rcases key after with h | ⟨r', hr', h⟩
  · rw [h] at hr; injection hr with hr; cases hr
  · rw [h] at hr
    injection hr with hr
    injection hr with _ hr
    rw [← hr]; exact hr'

theorem not_reachable (calls : List (MetricCall T)) (sched : List Nat)
    (h : ((MetricPool.start calls).exec mode shards shard sched).strong = 0) :
    ¬ Reachable ((MetricPool.start calls).exec mode shards shard sched) := by
  intro hr
  have := (alive_iff (mode := mode) (shards := shards) (shard := shard) calls sched).mpr hr
  omega

/-- C120. Every call of a reader or writer takes effect at one moment between its beginning and its end, and answers for
that moment: `valid` and refusals tell whether the maps can be reached, increments and gauge writes succeed (a debug
build panics if the counter is full), reads answer the entry. -/
theorem C120_answers (calls : List (MetricCall T)) (before during : List Nat) (i : Nat) (c : MetricCall T)
    (r : MetricAnswer T) (hc : c ≠ .snapshot) (hd : c ≠ .drop)
    (hi : ((MetricPool.start calls).exec mode shards shard before).threads[i]? = some (.calling c))
    (hr : ((MetricPool.start calls).exec mode shards shard (before ++ during)).threads[i]? = some (.returned c r)) :
    ∃ mid rest, during = mid ++ rest ∧
      Explained mode ((MetricPool.start calls).exec mode shards shard (before ++ mid)) c r := by
  rw [mexec_append] at hr
  obtain ⟨th, ht, hs⟩ := stage_exec _ i c hc hd hi during
  rw [ht] at hr
  injection hr with hr
  subst hr
  rcases hs with h | ⟨_, h⟩ | ⟨mid, rest, e, hv, r', hr', h | h⟩ | ⟨mid, rest, e, hv, h0, h⟩ | ⟨mid, rest, e, hv, h⟩
  · cases h
  · cases h
  · cases h
  · injection h with _ h
    subst h
    refine ⟨mid, rest, e, ?_⟩
    rw [mexec_append]
    generalize hq : MetricPool.exec mode shards shard (MetricPool.exec mode shards shard (MetricPool.start calls) before) mid = q at *
    cases c with
    | increment t =>
      have hcnt := (counted_exec (mode := mode) (shards := shards) (shard := shard) t _ (before ++ mid)
        (counted_start t calls)).1
      rw [mexec_append, hq] at hcnt
      cases ha : addU mode 64 ((q.maps.counters t).getD 0) 1 with
      | some v => simp [MetricCall.work, ha] at hr'; subst hr'; exact .increment t
      | none =>
        simp [MetricCall.work, ha] at hr'
        subst hr'
        cases mode with
        | release => unfold addU at ha; split at ha <;> simp at ha
        | debug =>
          refine .overflow t rfl ?_
          have h2 := hcnt.2 rfl
          rw [hcnt.1] at ha ⊢
          unfold counterShows at ha ⊢
          by_cases h0 : applied t q = 0
          · simp [h0, addU] at ha
          · simp only [h0, if_false, Option.getD_some, Nat.min_eq_left h2, addU] at ha ⊢
            split at ha
            · simp at ha
            · congr 1; omega
    | gauge t v => subst hr'; exact .gauge t v
    | readCounter t => subst hr'; exact .readCounter t
    | readGauge t => subst hr'; exact .readGauge t
    | valid => exact absurd rfl hv
    | snapshot => exact absurd rfl hc
    | drop => exact absurd rfl hd
  · injection h with _ h
    subst h
    refine ⟨mid, rest, e, .refused _ _ ?_ ?_⟩
    · exact not_reachable calls (before ++ mid) (by rw [mexec_append]; exact h0)
    · cases c <;> simp_all [Refused, MetricCall.lost]
  · subst hv
    injection h with _ h
    subst h
    refine ⟨mid, rest, e, .valid _ ?_⟩
    rw [← mexec_append]
    simp only [decide_eq_true_eq]
    exact alive_iff calls (before ++ mid)

/-- C120. At every moment, whatever threads do, a counter shows a number of increments that includes all that have
returned `true`, and besides them only some of those that have begun: none is lost, none invented. -/
theorem C120_counter (calls : List (MetricCall T)) (sched : List Nat) (t : T) :
    let p := (MetricPool.start calls).exec mode shards shard sched
    ∃ n, incrementsDone t p ≤ n ∧ n ≤ incrementsDone t p + incrementsOpen t p ∧ p.maps.counters t = counterShows mode n :=
  ⟨_, done_le_applied t _, applied_le t _,
    (counted_exec (mode := mode) (shards := shards) (shard := shard) t _ sched (counted_start t calls)).1.1⟩

/-- C120. Reading a counter gives the number of increments at a moment of the call: all that returned before the call
began are included, none that began after it returned. Unless the maps could not be reached at some moment of the
call. -/
theorem C120_read (calls : List (MetricCall T)) (before during : List Nat) (i : Nat) (t : T) (o : Option Nat)
    (hi : ((MetricPool.start calls).exec mode shards shard before).threads[i]? = some (.calling (.readCounter t)))
    (hr : ((MetricPool.start calls).exec mode shards shard (before ++ during)).threads[i]? =
      some (.returned (.readCounter t) (.count o))) :
    (∃ n, incrementsDone t ((MetricPool.start calls).exec mode shards shard before) ≤ n ∧
      n ≤ incrementsDone t ((MetricPool.start calls).exec mode shards shard (before ++ during)) +
        incrementsOpen t ((MetricPool.start calls).exec mode shards shard (before ++ during)) ∧
      o = counterShows mode n) ∨
    (o = none ∧ ∃ mid rest, during = mid ++ rest ∧
      ¬ Reachable ((MetricPool.start calls).exec mode shards shard (before ++ mid))) := by
  obtain ⟨mid, rest, e, hx⟩ := C120_answers calls before during i _ _ (by simp) (by simp) hi hr
  have h1 := counted_exec (mode := mode) (shards := shards) (shard := shard) t _ before (counted_start t calls)
  have h2 := counted_exec (mode := mode) (shards := shards) (shard := shard) t _ mid h1.1
  have h3 := counted_exec (mode := mode) (shards := shards) (shard := shard) t _ rest h2.1
  rw [← mexec_append] at h2
  rw [← mexec_append, ← mexec_append, ← e, ← mexec_append] at h3
  generalize hx' : MetricAnswer.count o = r at hx
  generalize hc' : MetricCall.readCounter t = c at hx
  cases hx with
  | refused c r hn hf =>
    subst hx' hc'
    simp only [Refused, MetricAnswer.count.injEq] at hf
    exact .inr ⟨hf, mid, rest, e, hn⟩
  | readCounter t' =>
    injection hc' with hc'
    subst hc'
    injection hx' with hx'
    refine .inl ⟨_, Nat.le_trans (done_le_applied t _) h2.2, Nat.le_trans h3.2 (applied_le t _), ?_⟩
    rw [hx']; exact h2.1.1
  | valid _ _ => cases hc'
  | increment _ => cases hc'
  | overflow _ _ _ => cases hc'
  | gauge _ _ => cases hc'
  | readGauge _ => cases hc'

theorem callOf_step (p : MetricPool T) (i j : Nat) (th : MetricThread T) (h : p.threads[j]? = some th) :
    ∃ th', (p.stepAt mode shards shard i).threads[j]? = some th' ∧ callOf th' = callOf th := by
  by_cases hj : i = j
  · subst hj
    rcases mstep_cases mode shards shard p i with e | ⟨th', ht, hs⟩
    · rw [e]; exact ⟨th, h, rfl⟩
    · rw [h] at ht
      injection ht with ht
      subst ht
      have hlt := (List.getElem?_eq_some_iff.mp h).1
      generalize p.stepAt mode shards shard i = q at hs
      cases hs <;> exact ⟨_, List.getElem?_set_self hlt, rfl⟩
  · rw [mstep_other _ _ _ hj]; exact ⟨th, h, rfl⟩

theorem callOf_exec (p : MetricPool T) (sched : List Nat) (j : Nat) (th : MetricThread T) (h : p.threads[j]? = some th) :
    ∃ th', (p.exec mode shards shard sched).threads[j]? = some th' ∧ callOf th' = callOf th := by
  induction sched using snoc_ind with
  | h0 => exact ⟨th, h, rfl⟩
  | h1 s i ih =>
    obtain ⟨th', h', e⟩ := ih
    rw [mexec_snoc]
    obtain ⟨th'', h'', e'⟩ := callOf_step (mode := mode) (shards := shards) (shard := shard) _ i j th' h'
    exact ⟨th'', h'', e'.trans e⟩

/-- Only the step in which it is written changes a gauge. -/
theorem gauge_step (p : MetricPool T) (i : Nat) (t : T) :
    (p.stepAt mode shards shard i).maps.gauges t = p.maps.gauges t ∨
      ∃ v, p.threads[i]? = some (.holding (.gauge t v)) ∧
        (p.stepAt mode shards shard i).maps.gauges t = some v ∧
        (p.stepAt mode shards shard i).threads = p.threads.set i (.leaving (.gauge t v) (.bool true)) := by
  rcases mstep_cases mode shards shard p i with e | ⟨th, ht, hs⟩
  · rw [e]; exact .inl rfl
  · generalize p.stepAt mode shards shard i = q at hs
    cases hs with
    | work c =>
      cases c with
      | gauge t' v =>
        by_cases e : t' = t
        · subst e; exact .inr ⟨v, ht, by simp [MetricCall.work, MetricMap.setGauge], rfl⟩
        · exact .inl (by simp [MetricCall.work, MetricMap.setGauge, Ne.symm e])
      | increment t' => exact .inl (by simp only [MetricCall.work]; split <;> rfl)
      | _ => exact .inl rfl
    | _ => exact .inl rfl

/-- C120. A gauge shows the value of a call that has begun; and something, once a call has returned `true`. -/
theorem C120_gauge_from (calls : List (MetricCall T)) (sched : List Nat) (t : T) :
    let p := (MetricPool.start calls).exec mode shards shard sched
    (∀ v, p.maps.gauges t = some v → ∃ i : Nat, (∃ r, p.threads[i]? = some (.leaving (.gauge t v) r)) ∨
      (∃ r, p.threads[i]? = some (.returned (.gauge t v) r))) ∧
    ((∃ (i : Nat) (v : UInt64), p.threads[i]? = some (.returned (.gauge t v) (.bool true))) → p.maps.gauges t ≠ none) := by
  dsimp only
  suffices h : (∀ v, ((MetricPool.start calls).exec mode shards shard sched).maps.gauges t = some v →
      ∃ i : Nat, (∃ r, ((MetricPool.start calls).exec mode shards shard sched).threads[i]? = some (.leaving (.gauge t v) r)) ∨
        (∃ r, ((MetricPool.start calls).exec mode shards shard sched).threads[i]? = some (.returned (.gauge t v) r))) ∧
      ∀ (i : Nat) (v : UInt64),
        (((MetricPool.start calls).exec mode shards shard sched).threads[i]? = some (.leaving (.gauge t v) (.bool true)) ∨
          ((MetricPool.start calls).exec mode shards shard sched).threads[i]? = some (.returned (.gauge t v) (.bool true))) →
        ((MetricPool.start calls).exec mode shards shard sched).maps.gauges t ≠ none from
    ⟨h.1, fun ⟨i, v, hv⟩ => h.2 i v (.inr hv)⟩
  induction sched using snoc_ind with
  | h0 =>
    refine ⟨fun v h => by simp [MetricPool.exec, MetricPool.start] at h, fun i v h => ?_⟩
    simp [MetricPool.exec, MetricPool.start] at h
  | h1 s j ih =>
    rw [mexec_snoc]
    generalize (MetricPool.start calls).exec mode shards shard s = p at *
    obtain ⟨ih1, ih2⟩ := ih
    have hmove : ∀ (i : Nat) v, ((∃ r, p.threads[i]? = some (.leaving (.gauge t v) r)) ∨
        (∃ r, p.threads[i]? = some (.returned (.gauge t v) r))) →
        (∃ r, (p.stepAt mode shards shard j).threads[i]? = some (.leaving (.gauge t v) r)) ∨
        (∃ r, (p.stepAt mode shards shard j).threads[i]? = some (.returned (.gauge t v) r)) := by
      intro i v h
      by_cases hj : j = i
      · subst hj
        rcases mstep_cases mode shards shard p j with e | ⟨th, ht, hs⟩
        · rw [e]; exact h
        · have hlt := (List.getElem?_eq_some_iff.mp ht).1
          generalize p.stepAt mode shards shard j = q at hs
          rcases h with ⟨r, h⟩ | ⟨r, h⟩
          · rw [h] at ht; injection ht with ht; subst ht
            cases hs with
            | leave c r => exact .inr ⟨r, by simp [List.getElem?_set_self hlt]⟩
          · rw [h] at ht; injection ht with ht; subst ht; cases hs
      · rw [mstep_other _ _ _ hj]; exact h
    rcases gauge_step (mode := mode) (shards := shards) (shard := shard) p j t with e | ⟨v', h1, h2, h3⟩
    · refine ⟨fun v h => ?_, fun i v h => ?_⟩
      · rw [e] at h
        obtain ⟨i, hi⟩ := ih1 v h
        exact ⟨i, hmove i v hi⟩
      · rw [e]
        by_cases hj : j = i
        · subst hj
          rcases mstep_cases mode shards shard p j with e' | ⟨th, ht, hs⟩
          · rw [e'] at h; exact ih2 j v h
          · have hlt := (List.getElem?_eq_some_iff.mp ht).1
            generalize p.stepAt mode shards shard j = q at hs e h
            cases hs with
            | leave c r =>
              simp [List.getElem?_set_self hlt] at h
              obtain ⟨rfl, rfl⟩ := h
              exact ih2 j v (.inl ht)
            | work c =>
              simp [List.getElem?_set_self hlt] at h
              obtain ⟨rfl, _⟩ := h
              simp [MetricCall.work, MetricMap.setGauge] at e
              rw [← e]; simp
            | lose c _ _ _ _ =>
              simp [List.getElem?_set_self hlt] at h
              obtain ⟨rfl, h⟩ := h
              simp [MetricCall.lost] at h
            | _ => simp [List.getElem?_set_self hlt] at h
        · rw [mstep_other _ _ _ hj] at h; exact ih2 i v h
    · have hlt := (List.getElem?_eq_some_iff.mp h1).1
      refine ⟨fun v h => ?_, fun i v _ => by rw [h2]; simp⟩
      rw [h2] at h
      injection h with h
      subst h
      exact ⟨j, .inl ⟨.bool true, by rw [h3]; simp [List.getElem?_set_self hlt]⟩⟩

/-- C120. A gauge written while no other thread writes it shows that value once the call has returned. -/
theorem C120_gauge_last (calls : List (MetricCall T)) (before during : List Nat) (i : Nat) (t : T) (v : UInt64)
    (hi : ((MetricPool.start calls).exec mode shards shard before).threads[i]? = some (.calling (.gauge t v)))
    (ho : ∀ j ∈ during, j ≠ i → ∀ v', calls[j]? ≠ some (.gauge t v'))
    (hr : ((MetricPool.start calls).exec mode shards shard (before ++ during)).threads[i]? =
      some (.returned (.gauge t v) (.bool true))) :
    ((MetricPool.start calls).exec mode shards shard (before ++ during)).maps.gauges t = some v := by
  have hcall : ∀ sched (j : Nat) th, ((MetricPool.start calls).exec mode shards shard sched).threads[j]? = some th →
      calls[j]? = some (callOf th) := by
    intro sched j th hth
    have hlen : ((MetricPool.start calls).exec mode shards shard sched).threads.length = calls.length := by
      clear hth
      induction sched using snoc_ind with
      | h0 => simp [MetricPool.exec, MetricPool.start]
      | h1 s k ih =>
        rw [mexec_snoc]
        generalize (MetricPool.start calls).exec mode shards shard s = p at *
        rcases mstep_cases mode shards shard p k with e | ⟨th, ht, hs⟩
        · rw [e]; exact ih
        · generalize p.stepAt mode shards shard k = q at hs
          cases hs <;> simpa using ih
    have hlt := (List.getElem?_eq_some_iff.mp hth).1
    rw [hlen] at hlt
    obtain ⟨th', h', e⟩ := callOf_exec (mode := mode) (shards := shards) (shard := shard) (MetricPool.start calls) sched j
      (.calling calls[j]) (by simp [MetricPool.start, hlt])
    rw [hth] at h'
    injection h' with h'
    subst h'
    rw [e]
    simp [callOf, hlt]
  suffices h : ∀ during, (∀ j ∈ during, j ≠ i → ∀ v', calls[j]? ≠ some (.gauge t v')) →
      ∃ th, ((MetricPool.start calls).exec mode shards shard (before ++ during)).threads[i]? = some th ∧
        (th = .calling (.gauge t v) ∨ th = .holding (.gauge t v) ∨ th = .returned (.gauge t v) (.bool false) ∨
          ((th = .leaving (.gauge t v) (.bool true) ∨ th = .returned (.gauge t v) (.bool true)) ∧
            ((MetricPool.start calls).exec mode shards shard (before ++ during)).maps.gauges t = some v)) by
    obtain ⟨th, hth, h⟩ := h during ho
    rw [hth] at hr
    injection hr with hr
    subst hr
    rcases h with h | h | h | ⟨_, h⟩
    · cases h
    · cases h
    · cases h
    · exact h
  intro during
  induction during using snoc_ind with
  | h0 => intro _; exact ⟨_, by rw [List.append_nil]; exact hi, .inl rfl⟩
  | h1 s j ih =>
    intro ho
    obtain ⟨th, hth, h⟩ := ih (fun j hj => ho j (by simp [hj]))
    have hcj := hcall (before ++ s) j
    rw [← List.append_assoc, mexec_snoc]
    generalize (MetricPool.start calls).exec mode shards shard (before ++ s) = p at *
    by_cases hj : j = i
    · subst hj
      rcases mstep_cases mode shards shard p j with e | ⟨th', ht', hst⟩
      · rw [e]; exact ⟨th, hth, h⟩
      · have e : th' = th := by rw [hth] at ht'; injection ht' with ht'; exact ht'.symm
        subst e
        have hlt := (List.getElem?_eq_some_iff.mp hth).1
        generalize p.stepAt mode shards shard j = q at hst
        rcases h with h | h | h | ⟨h | h, hg⟩
        · subst h
          cases hst with
          | lose c _ _ _ _ => exact ⟨_, List.getElem?_set_self hlt, .inr (.inr (.inl rfl))⟩
          | take c _ _ _ _ => exact ⟨_, List.getElem?_set_self hlt, .inr (.inl rfl)⟩
        · subst h
          cases hst with
          | work c =>
            exact ⟨_, List.getElem?_set_self hlt, .inr (.inr (.inr ⟨.inl rfl, by
              simp [MetricCall.work, MetricMap.setGauge]⟩))⟩
        · subst h; cases hst
        · subst h
          cases hst with
          | leave c r => exact ⟨_, List.getElem?_set_self hlt, .inr (.inr (.inr ⟨.inr rfl, hg⟩))⟩
        · subst h; cases hst
    · refine ⟨th, by rw [mstep_other _ _ _ hj]; exact hth, ?_⟩
      rcases gauge_step (mode := mode) (shards := shards) (shard := shard) p j t with e | ⟨v', h1, _, _⟩
      · rw [e]; exact h
      · exact absurd (hcj _ h1) (ho j (by simp) hj v')

/-- **C121 as one would want it:** a snapshot shows both maps as they were at one moment while it was taken. -/
def C121_Statement : Prop :=
  ∀ (T : Type) (_ : DecidableEq T) (mode : Mode) (shards : Nat) (shard : T → Nat) (calls : List (MetricCall T))
    (before during : List Nat) (i : Nat) (s : MetricMap T), (∀ t, shard t < shards) →
    ((MetricPool.start calls).exec mode shards shard before).threads[i]? = some (.calling .snapshot) →
    ((MetricPool.start calls).exec mode shards shard (before ++ during)).threads[i]? =
      some (.returned .snapshot (.snap s)) →
    ∃ mid, mid <+: during ∧ ∀ t,
      s.counters t = ((MetricPool.start calls).exec mode shards shard (before ++ mid)).maps.counters t ∧
      s.gauges t = ((MetricPool.start calls).exec mode shards shard (before ++ mid)).maps.gauges t

/-- C121 fails: one counter is incremented, then another, while a snapshot is taken; the snapshot has the second
increment and not the first. -/
theorem C121_false : ¬ C121_Statement := by
  intro h
  have run : ∃ s : MetricMap Bool, ((MetricPool.start [.snapshot, .increment false, .increment true]).exec .release 2
      Bool.toNat ([] ++ [0, 0, 1, 1, 1, 2, 2, 2, 0, 0, 0, 0])).threads[0]? = some (.returned .snapshot (.snap s)) ∧
      s.counters false = none ∧ s.counters true = some 1 := ⟨_, rfl, rfl, rfl⟩
  obtain ⟨s, hs, h0, h1⟩ := run
  obtain ⟨mid, hm, ht⟩ := h Bool inferInstance .release 2 Bool.toNat [.snapshot, .increment false, .increment true] [] _ 0 s
    (by decide) rfl hs
  have e0 := (ht false).1
  have e1 := (ht true).1
  rw [h0] at e0
  rw [h1] at e1
  rw [List.prefix_iff_eq_take] at hm
  have hle : mid.length < 13 := by
    have := congrArg List.length hm
    rw [List.length_take] at this
    simp at this
    omega
  have key : ∀ k < 13, ((MetricPool.start [.snapshot, .increment false, .increment true]).exec .release 2
      Bool.toNat ([] ++ [0, 0, 1, 1, 1, 2, 2, 2, 0, 0, 0, 0].take k)).maps.counters false = none →
      ((MetricPool.start [.snapshot, .increment false, .increment true]).exec .release 2
      Bool.toNat ([] ++ [0, 0, 1, 1, 1, 2, 2, 2, 0, 0, 0, 0].take k)).maps.counters true ≠ some 1 := by decide +kernel
  rw [hm] at e0 e1
  exact key _ hle e0.symm e1.symm

/-- C121, what holds: while a snapshot is taken it passes through the locks of both maps, and every entry is as it was at
the moment of its lock: entries that share a lock are of the same moment, and the moments follow each other. Missing:
that all are the same moment. -/
theorem C121_snapshot_partial (calls : List (MetricCall T)) (before during : List Nat) (i : Nat) (s : MetricMap T)
    (hsh : ∀ t, shard t < shards)
    (hi : ((MetricPool.start calls).exec mode shards shard before).threads[i]? = some (.calling .snapshot))
    (hr : ((MetricPool.start calls).exec mode shards shard (before ++ during)).threads[i]? =
      some (.returned .snapshot (.snap s))) :
    ∃ moment : Nat → List Nat, (∀ k, moment k <+: during) ∧ (∀ k l, k ≤ l → moment k <+: moment l) ∧ ∀ t,
      s.counters t = ((MetricPool.start calls).exec mode shards shard (before ++ moment (shard t))).maps.counters t ∧
      s.gauges t =
        ((MetricPool.start calls).exec mode shards shard (before ++ moment (shards + shard t))).maps.gauges t := by
  let so : List Nat → Nat → MetricMap T → Prop := fun during n s =>
    n ≤ 2 * shards ∧ ∃ moment : Nat → List Nat, (∀ k, moment k <+: during) ∧ (∀ k l, k ≤ l → moment k <+: moment l) ∧
      (∀ k, n ≤ k → moment k = during) ∧ ∀ t,
      (shard t < n →
        s.counters t = ((MetricPool.start calls).exec mode shards shard (before ++ moment (shard t))).maps.counters t) ∧
      (shards + shard t < n → s.gauges t =
        ((MetricPool.start calls).exec mode shards shard (before ++ moment (shards + shard t))).maps.gauges t)
  have grow : ∀ during n s j, so during n s → so (during ++ [j]) n s := by
    rintro during n s j ⟨hn, m, h1, h2, h3, h4⟩
    refine ⟨hn, fun k => if k < n then m k else during ++ [j], ?_, ?_, ?_, ?_⟩
    · intro k
      dsimp only
      split
      · exact (h1 k).trans (List.prefix_append _ _)
      · exact List.prefix_refl _
    · intro k l hkl
      dsimp only
      split
      · split
        · exact h2 k l hkl
        · exact (h1 k).trans (List.prefix_append _ _)
      · rw [if_neg (by omega)]; exact List.prefix_refl _
    · intro k hk; dsimp only; rw [if_neg (by omega)]
    · intro t
      refine ⟨fun h => ?_, fun h => ?_⟩
      · dsimp only; rw [if_pos h]; exact (h4 t).1 h
      · dsimp only; rw [if_pos h]; exact (h4 t).2 h
  suffices h : ∀ during, ∃ th,
      ((MetricPool.start calls).exec mode shards shard (before ++ during)).threads[i]? = some th ∧
      (th = .calling .snapshot ∨ (∃ n s, th = .copying n s ∧ so during n s) ∨
        ∃ s, th = .returned .snapshot (.snap s) ∧ so during (2 * shards) s) by
    obtain ⟨th, hth, h⟩ := h during
    rw [hr] at hth
    injection hth with hth
    subst hth
    rcases h with h | ⟨n, s', h, _⟩ | ⟨s', h, _, m, h1, h2, _, h4⟩
    · cases h
    · cases h
    · injection h with _ h
      injection h with h
      subst h
      exact ⟨m, h1, h2, fun t => ⟨(h4 t).1 (by have := hsh t; omega), (h4 t).2 (by have := hsh t; omega)⟩⟩
  intro during
  induction during using snoc_ind with
  | h0 => exact ⟨_, by rw [List.append_nil]; exact hi, .inl rfl⟩
  | h1 d j ih =>
    obtain ⟨th, hth, h⟩ := ih
    have keep : th = .calling .snapshot ∨ (∃ n s, th = .copying n s ∧ so (d ++ [j]) n s) ∨
        ∃ s, th = .returned .snapshot (.snap s) ∧ so (d ++ [j]) (2 * shards) s := by
      rcases h with h | ⟨n, s', h, hs⟩ | ⟨s', h, hs⟩
      · exact .inl h
      · exact .inr (.inl ⟨n, s', h, grow _ _ _ _ hs⟩)
      · exact .inr (.inr ⟨s', h, grow _ _ _ _ hs⟩)
    rw [← List.append_assoc, mexec_snoc]
    by_cases hj : j = i
    · subst hj
      rcases mstep_cases mode shards shard ((MetricPool.start calls).exec mode shards shard (before ++ d)) j with
        e | ⟨th', ht', hst⟩
      · rw [e]; exact ⟨th, hth, keep⟩
      · have e : th' = th := by rw [hth] at ht'; injection ht' with ht'; exact ht'.symm
        subst e
        have hlt := (List.getElem?_eq_some_iff.mp hth).1
        generalize hq : ((MetricPool.start calls).exec mode shards shard (before ++ d)).stepAt mode shards shard j = q at hst
        rcases h with h | ⟨n, s', h, hs⟩ | ⟨s', h, hs⟩
        · subst h
          cases hst with
          | copy _ =>
            refine ⟨_, List.getElem?_set_self hlt, .inr (.inl ⟨0, _, rfl, Nat.zero_le _, fun _ => d ++ [j], ?_, ?_, ?_, ?_⟩)⟩
            · intro k; exact List.prefix_refl _
            · intro k l _; exact List.prefix_refl _
            · intro k _; rfl
            · intro t; exact ⟨fun h => absurd h (Nat.not_lt_zero _), fun h => absurd h (Nat.not_lt_zero _)⟩
          | lose c _ h _ _ => exact absurd rfl h
          | take c _ h _ _ => exact absurd rfl h
        · subst h
          cases hst with
          | more n s' hn =>
            obtain ⟨_, m, h1, h2, h3, h4⟩ := hs
            refine ⟨_, List.getElem?_set_self hlt, .inr (.inl ⟨n + 1, _, rfl, hn, fun k => if k ≤ n then m k else d ++ [j],
              ?_, ?_, ?_, ?_⟩)⟩
            · intro k
              dsimp only
              split
              · exact (h1 k).trans (List.prefix_append _ _)
              · exact List.prefix_refl _
            · intro k l hkl
              dsimp only
              split
              · split
                · exact h2 k l hkl
                · exact (h1 k).trans (List.prefix_append _ _)
              · rw [if_neg (by omega)]; exact List.prefix_refl _
            · intro k hk; dsimp only; rw [if_neg (by omega)]
            · intro t
              refine ⟨fun h => ?_, fun h => ?_⟩
              · dsimp only
                rw [if_pos (by omega)]
                simp only [copyShard]
                by_cases e : shard t = n
                · rw [if_pos e, e, h3 n (Nat.le_refl _)]
                · rw [if_neg e]; exact (h4 t).1 (by omega)
              · dsimp only
                rw [if_pos (by omega)]
                simp only [copyShard]
                by_cases e : shards + shard t = n
                · rw [if_pos e, e, h3 n (Nat.le_refl _)]
                · rw [if_neg e]; exact (h4 t).2 (by omega)
          | copied n s' hn =>
            have e : n = 2 * shards := by have := hs.1; omega
            subst e
            exact ⟨_, List.getElem?_set_self hlt, .inr (.inr ⟨_, rfl, grow _ _ _ _ hs⟩)⟩
        · subst h; cases hst
    · rw [mstep_other _ _ _ hj]; exact ⟨th, hth, keep⟩

/-- C122. Every counter in a snapshot has all increments that returned before the snapshot was begun, and none that began
after it was finished; every gauge has a value it had meanwhile. -/
theorem C122_snapshot (calls : List (MetricCall T)) (before during : List Nat) (i : Nat) (s : MetricMap T)
    (hsh : ∀ t, shard t < shards)
    (hi : ((MetricPool.start calls).exec mode shards shard before).threads[i]? = some (.calling .snapshot))
    (hr : ((MetricPool.start calls).exec mode shards shard (before ++ during)).threads[i]? =
      some (.returned .snapshot (.snap s))) (t : T) :
    (∃ n, incrementsDone t ((MetricPool.start calls).exec mode shards shard before) ≤ n ∧
      n ≤ incrementsDone t ((MetricPool.start calls).exec mode shards shard (before ++ during)) +
        incrementsOpen t ((MetricPool.start calls).exec mode shards shard (before ++ during)) ∧
      s.counter t = counterShows mode n) ∧
    ∃ mid, mid <+: during ∧
      s.gauge t = ((MetricPool.start calls).exec mode shards shard (before ++ mid)).maps.gauges t := by
  obtain ⟨m, h1, _, h3⟩ := C121_snapshot_partial calls before during i s hsh hi hr
  refine ⟨?_, m (shards + shard t), h1 _, (h3 t).2⟩
  obtain ⟨rest, e⟩ := h1 (shard t)
  have a1 := counted_exec (mode := mode) (shards := shards) (shard := shard) t _ before (counted_start t calls)
  have a2 := counted_exec (mode := mode) (shards := shards) (shard := shard) t _ (m (shard t)) a1.1
  have a3 := counted_exec (mode := mode) (shards := shards) (shard := shard) t _ rest a2.1
  rw [← mexec_append] at a2
  rw [← mexec_append, ← mexec_append, e, ← mexec_append] at a3
  exact ⟨_, Nat.le_trans (done_le_applied t _) a2.2, Nat.le_trans a3.2 (applied_le t _), (h3 t).1.trans a2.1.1⟩

/-- While a snapshot is taken the instance exists; while it exists it has not been dropped, and no call was refused. -/
def Undropped (p : MetricPool T) : Prop :=
  (∀ th ∈ p.threads, th.borrows = true → p.owned = true) ∧
  (p.owned = true → ∀ th ∈ p.threads, ∀ c r, th = .returned c r ∨ th = .leaving c r →
    c ≠ .drop ∧ r ≠ .bool false ∨ ∃ r', th = .leaving .drop r')

/-- No thread is within a call of `drop`: that is a single step. -/
def DropsAtOnce (p : MetricPool T) : Prop := ∀ th ∈ p.threads, th ≠ .holding .drop ∧ ∀ r, th ≠ .leaving .drop r

theorem dropsAtOnce_step (p : MetricPool T) (i : Nat) (h : DropsAtOnce p) :
    DropsAtOnce (p.stepAt mode shards shard i) := by
  rcases mstep_cases mode shards shard p i with e | ⟨t, ht, hs⟩
  · rw [e]; exact h
  · have hm := List.mem_of_getElem? ht
    have key : ∀ a : MetricThread T, (a ≠ .holding .drop ∧ ∀ r, a ≠ .leaving .drop r) →
        ∀ th ∈ p.threads.set i a, th ≠ .holding .drop ∧ ∀ r, th ≠ .leaving .drop r := by
      intro a ha th hth
      rcases List.mem_or_eq_of_mem_set hth with h' | h'
      · exact h th h'
      · subst h'; exact ha
    generalize p.stepAt mode shards shard i = q at hs
    cases hs with
    | valid => exact key _ (by simp)
    | copy _ => exact key _ (by simp)
    | drop _ _ => exact key _ (by simp)
    | lose c _ _ _ _ => exact key _ (by simp)
    | take c _ _ hd _ => exact key _ (by simp [hd])
    | work c =>
      refine key _ ⟨by simp, fun r e => ?_⟩
      simp only [MetricThread.leaving.injEq] at e
      exact (h _ hm).1 (by rw [e.1])
    | leave c r => exact key _ (by simp)
    | more n s _ => exact key _ (by simp)
    | copied n s _ => exact key _ (by simp)

theorem work_not_false (mode : Mode) (m : MetricMap T) (c : MetricCall T) :
    (c.work mode m).1 ≠ .bool false := by
  cases c <;> simp only [MetricCall.work] <;> try simp
  split <;> simp

theorem undropped_step (p : MetricPool T) (i : Nat) (hp : 0 < p.strong ∨ p.owned = false) (hd : DropsAtOnce p)
    (h : Undropped p) : Undropped (p.stepAt mode shards shard i) := by
  rcases mstep_cases mode shards shard p i with e | ⟨t, ht, hs⟩
  · rw [e]; exact h
  · have hm := List.mem_of_getElem? ht
    have fine : ∀ a : MetricThread T, (a.borrows = true → p.owned = true) →
        (p.owned = true → ∀ c r, a = .returned c r ∨ a = .leaving c r →
          c ≠ .drop ∧ r ≠ .bool false ∨ ∃ r', a = .leaving .drop r') →
        (∀ th ∈ p.threads.set i a, th.borrows = true → p.owned = true) ∧
        (p.owned = true → ∀ th ∈ p.threads.set i a, ∀ c r, th = .returned c r ∨ th = .leaving c r →
          c ≠ .drop ∧ r ≠ .bool false ∨ ∃ r', th = .leaving .drop r') := by
      intro a h1 h2
      refine ⟨fun th hth => ?_, fun ho th hth => ?_⟩ <;> rcases List.mem_or_eq_of_mem_set hth with h' | h'
      · exact h.1 th h'
      · subst h'; exact h1
      · exact h.2 ho th h'
      · subst h'; exact h2 ho
    generalize p.stepAt mode shards shard i = q at hs
    cases hs with
    | valid =>
      refine fine _ (by simp [MetricThread.borrows]) fun ho c r e => .inl ?_
      rcases e with e | e
      · injection e with e1 e2
        rcases hp with hp | hp
        · exact ⟨by simp [← e1], by simp [← e2]; omega⟩
        · rw [ho] at hp; cases hp
      · cases e
    | copy ho => exact fine _ (fun _ => ho) fun _ c r e => by rcases e with e | e <;> cases e
    | drop ho hb =>
      refine ⟨fun th hth hbt => ?_, fun ho => by cases ho⟩
      rcases List.mem_or_eq_of_mem_set hth with h' | h'
      · rw [hb th h'] at hbt; cases hbt
      · subst h'; simp [MetricThread.borrows] at hbt
    | lose c _ _ _ hs =>
      refine fine _ (by simp [MetricThread.borrows]) fun ho => ?_
      rcases hp with hp | hp
      · omega
      · rw [ho] at hp; cases hp
    | take c _ _ _ _ =>
      exact fine _ (by simp [MetricThread.borrows]) fun _ c' r e => by rcases e with e | e <;> cases e
    | work c =>
      refine fine _ (by simp [MetricThread.borrows]) fun _ c' r e => .inl ?_
      rcases e with e | e
      · cases e
      · injection e with e1 e2
        subst e1; subst e2
        exact ⟨fun e => (hd _ hm).1 (by rw [e]), work_not_false _ _ _⟩
    | leave c r =>
      refine fine _ (by simp [MetricThread.borrows]) fun ho c' r' e => .inl ?_
      rcases e with e | e
      · injection e with e1 e2
        subst e1; subst e2
        rcases h.2 ho _ hm c r (.inr rfl) with h' | ⟨r', h'⟩
        · exact h'
        · exact absurd h' ((hd _ hm).2 r')
      · cases e
    | more n s _ =>
      exact fine _ (fun _ => h.1 _ hm rfl) fun _ c r e => by rcases e with e | e <;> cases e
    | copied n s _ =>
      refine fine _ (by simp [MetricThread.borrows]) fun _ c r e => .inl ?_
      rcases e with e | e
      · injection e with e1 e2; subst e1; subst e2; simp
      · cases e

theorem undropped_exec (calls : List (MetricCall T)) (sched : List Nat) :
    let p := (MetricPool.start calls).exec mode shards shard sched
    DropsAtOnce p ∧ Undropped p := by
  induction sched using snoc_ind with
  | h0 =>
    refine ⟨fun th hth => ?_, fun th hth hb => rfl, fun _ th hth c r e => ?_⟩ <;>
      (obtain ⟨c', _, rfl⟩ := List.mem_map.mp (show th ∈ calls.map MetricThread.calling from hth))
    · simp
    · rcases e with e | e <;> cases e
  | h1 s i ih =>
    dsimp only at ih ⊢
    rw [mexec_snoc]
    have hp := alive_iff (mode := mode) (shards := shards) (shard := shard) calls s
    dsimp only at hp
    refine ⟨dropsAtOnce_step _ _ ih.1, undropped_step _ _ ?_ ih.1 ih.2⟩
    cases ho : ((MetricPool.start calls).exec mode shards shard s).owned with
    | true => exact .inl (hp.mpr (.inl ho))
    | false => exact .inr rfl

/-- C122, the instance. While a snapshot is being taken, the instance has not been dropped, and no write and no question
whether the instance exists has been refused. -/
theorem C122_meanwhile (calls : List (MetricCall T)) (sched : List Nat) (i n : Nat) (s : MetricMap T)
    (hi : ((MetricPool.start calls).exec mode shards shard sched).threads[i]? = some (.copying n s))
    (j : Nat) (c : MetricCall T) (r : MetricAnswer T)
    (hj : ((MetricPool.start calls).exec mode shards shard sched).threads[j]? = some (.returned c r)) :
    c ≠ .drop ∧ r ≠ .bool false := by
  have h := (undropped_exec (mode := mode) (shards := shards) (shard := shard) calls sched).2
  have ho := h.1 _ (List.mem_of_getElem? hi) rfl
  rcases h.2 ho _ (List.mem_of_getElem? hj) c r (.inl rfl) with h' | ⟨r', h'⟩
  · exact h'
  · cases h'

/-! ## Concrete cases -/

/-- Two increments, one read and a drop: the read begins when one increment has returned and the other is half-way. -/
def bustling : List (MetricCall Nat) := [.increment 5, .increment 5, .readCounter 5, .gauge 1 7, .snapshot, .drop, .valid]

example : ∃ n, 1 ≤ n ∧ n ≤ 2 ∧
    ((MetricPool.start bustling).exec .debug 1 (fun _ => 0) [0, 0, 0, 1]).maps.counters 5 = counterShows .debug n :=
  C120_counter (mode := .debug) (shards := 1) (shard := fun _ => 0) bustling [0, 0, 0, 1] 5

example : ∃ n, 1 ≤ n ∧ n ≤ 2 ∧ some 2 = counterShows .debug n := by
  have h := C120_read (mode := .debug) (shards := 1) (shard := fun _ => 0) bustling [0, 0, 0, 1] [1, 2, 2, 2, 1] 2 5 (some 2)
    rfl rfl
  rw [show incrementsDone 5 ((MetricPool.start bustling).exec .debug 1 (fun _ => 0) [0, 0, 0, 1]) = 1 from rfl,
    show incrementsDone 5 ((MetricPool.start bustling).exec .debug 1 (fun _ => 0) ([0, 0, 0, 1] ++ [1, 2, 2, 2, 1])) = 2
      from rfl,
    show incrementsOpen 5 ((MetricPool.start bustling).exec .debug 1 (fun _ => 0) ([0, 0, 0, 1] ++ [1, 2, 2, 2, 1])) = 0
      from rfl] at h
  exact h.resolve_right fun h => by cases h.1

example : ∃ mid rest, [0, 0, 1, 0] = mid ++ rest ∧
    Explained .debug ((MetricPool.start bustling).exec .debug 1 (fun _ => 0) ([1] ++ mid)) (.increment 5) (.bool true) :=
  C120_answers (mode := .debug) (shards := 1) (shard := fun _ => 0) bustling [1] [0, 0, 1, 0] 0 (.increment 5) (.bool true)
    (by simp) (by simp) rfl rfl

example : ∃ mid rest, [6] = mid ++ rest ∧
    Explained .debug ((MetricPool.start bustling).exec .debug 1 (fun _ => 0) ([0, 5] ++ mid)) .valid (.bool true) :=
  C120_answers (mode := .debug) (shards := 1) (shard := fun _ => 0) bustling [0, 5] [6] 6 .valid (.bool true) (by simp)
    (by simp) rfl rfl

example : ((MetricPool.start bustling).exec .debug 1 (fun _ => 0) ([0] ++ [3, 0, 3, 0, 3])).maps.gauges 1 = some 7 :=
  C120_gauge_last (mode := .debug) (shards := 1) (shard := fun _ => 0) bustling [0] [3, 0, 3, 0, 3] 3 1 7 rfl
    (by
      intro j hj hne v'
      simp at hj
      rcases hj with rfl | rfl | rfl | rfl | rfl <;> simp_all [bustling]) rfl

/-- The instance cannot be dropped half-way through the snapshot: the last call finds it there. -/
example : (.valid : MetricCall Nat) ≠ .drop ∧ (.bool true : MetricAnswer Nat) ≠ .bool false :=
  C122_meanwhile (mode := .debug) (shards := 1) (shard := fun _ => 0) bustling [0, 4, 5, 6] 4 0
    ⟨fun _ => none, fun _ => none⟩ rfl 6 .valid (.bool true) rfl

/-- Nobody is in a call when the instance goes: later increments are refused. -/
example : Refused (.increment 5) (MetricAnswer.bool (T := Nat) false) :=
  C119_dropped_partial (mode := .debug) (shards := 1) (shard := fun _ => 0) bustling [0, 0, 0, 5] [1] 1 (.increment 5)
    (.bool false) rfl (by
      intro th hth
      rw [show ((MetricPool.start bustling).exec .debug 1 (fun _ => 0) [0, 0, 0, 5]).threads =
        [.returned (.increment 5) (.bool true), .calling (.increment 5), .calling (.readCounter 5), .calling (.gauge 1 7),
          .calling .snapshot, .returned .drop .unit, .calling .valid] from rfl] at hth
      simp at hth
      rcases hth with rfl | rfl | rfl | rfl | rfl | rfl | rfl <;> simp [Underway]) rfl rfl

example : ∃ s : MetricMap Nat, ((MetricPool.start bustling).exec .debug 1 (fun _ => 0)
    ([0, 0, 0] ++ [4, 1, 1, 4, 4, 4])).threads[4]? = some (.returned .snapshot (.snap s)) ∧ s.counter 5 = some 2 :=
  ⟨_, rfl, rfl⟩

/-- What a snapshot shows of a counter that two calls increment. -/
example (s : MetricMap Nat) (h : ((MetricPool.start bustling).exec .debug 1 (fun _ => 0) ([0, 0, 0, 1] ++ [4, 4, 4, 1, 1, 4, 4])).threads[4]? =
    some (.returned .snapshot (.snap s))) : ∃ n, 1 ≤ n ∧ n ≤ 2 ∧ s.counter 5 = counterShows .debug n := by
  obtain ⟨⟨n, h1, h2, h3⟩, -⟩ := C122_snapshot (mode := .debug) (shards := 1) (shard := fun _ => 0) bustling [0, 0, 0, 1] [4, 4, 4, 1, 1, 4, 4] 4 s
    (fun _ => by decide) rfl h 5
  exact ⟨n, h1, h2, h3⟩

example (s : MetricMap Nat) (h : ((MetricPool.start bustling).exec .debug 1 (fun _ => 0) ([0, 0, 0, 1] ++ [4, 4, 4, 1, 1, 4, 4])).threads[4]? =
    some (.returned .snapshot (.snap s))) : ∃ during, during <+: [4, 4, 4, 1, 1, 4, 4] ∧
      s.counters 5 = ((MetricPool.start bustling).exec .debug 1 (fun _ => 0) ([0, 0, 0, 1] ++ during)).maps.counters 5 := by
  obtain ⟨moment, h1, -, h3⟩ := C121_snapshot_partial (mode := .debug) (shards := 1) (shard := fun _ => 0) bustling [0, 0, 0, 1]
    [4, 4, 4, 1, 1, 4, 4] 4 s (fun _ => by decide) rfl h
  exact ⟨moment 0, h1 0, (h3 5).1⟩

/-- Such a snapshot. -/
example : ∃ s, ((MetricPool.start bustling).exec .debug 1 (fun _ => 0) ([0, 0, 0, 1] ++ [4, 4, 4, 1, 1, 4, 4])).threads[4]? =
    some (.returned .snapshot (.snap s)) := ⟨_, rfl⟩

end Hop
