import Verif.Model.MetricLocks
import Verif.Props.MetricsThreads
import Verif.Lemmas.Fair
import Verif.Props.Guards

/-! # C169, C170: the locks of the metrics -/

namespace Hop
open Spec

variable {T : Type} [DecidableEq T] {mode : Mode} {shards : Nat} {shard : T → Nat}

/-! ## The maps -/

theorem MetricMap.put_get (m : MetricMap T) (c : MCell T) (v : c.Val) : (m.put c v).get c = v := by
  cases c <;> simp [MetricMap.put, MetricMap.get]

theorem MetricMap.put_get_ne (m : MetricMap T) {c d : MCell T} (h : d ≠ c) (v : c.Val) : (m.put c v).get d = m.get d := by
  cases c with
  | counter t =>
    cases d with
    | counter t' =>
      have : t' ≠ t := fun e => h (by rw [e])
      simp [MetricMap.put, MetricMap.get, this]
    | gauge t' => rfl
  | gauge t =>
    cases d with
    | counter t' => rfl
    | gauge t' =>
      have : t' ≠ t := fun e => h (by rw [e])
      simp [MetricMap.put, MetricMap.get, this]

theorem MetricMap.ext_get {m m' : MetricMap T} (h : ∀ c, m.get c = m'.get c) : m = m' := by
  obtain ⟨a, b⟩ := m
  obtain ⟨a', b'⟩ := m'
  have e1 : a = a' := funext fun t => h (.counter t)
  have e2 : b = b' := funext fun t => h (.gauge t)
  rw [e1, e2]

theorem MetricMap.put_put (m : MetricMap T) (c : MCell T) (v w : c.Val) : (m.put c v).put c w = m.put c w := by
  apply MetricMap.ext_get
  intro d
  by_cases h : d = c
  · subst h; rw [MetricMap.put_get, MetricMap.put_get]
  · rw [MetricMap.put_get_ne _ h, MetricMap.put_get_ne _ h, MetricMap.put_get_ne _ h]

theorem MetricMap.put_self (m : MetricMap T) (c : MCell T) : m.put c (m.get c) = m := by
  apply MetricMap.ext_get
  intro d
  by_cases h : d = c
  · subst h; rw [MetricMap.put_get]
  · rw [MetricMap.put_get_ne _ h]

/-! ## What an access does -/

theorem MetricThread.step_changes {t : MetricThread T} {c : MCell T} (h : t.changes = some c) (mode : Mode) (shards : Nat)
    (shard : T → Nat) (i : Nat) (o : c.Val) :
    ∃ t' v, ∀ p : MetricPool T, p.threads[i]? = some t → p.maps.get c = o →
      p.stepAt mode shards shard i = { p with threads := p.threads.set i t', maps := p.maps.put c v } := by
  cases t with
  | holding call =>
    cases call with
    | increment k =>
      simp only [MetricThread.changes, Option.some.injEq] at h
      subst h
      cases hr : addU mode 64 (Option.getD (α := Nat) o 0) 1 with
      | none =>
        refine ⟨.leaving (.increment k) .panic, some (Option.getD (α := Nat) o 0), fun p hp ho => ?_⟩
        have ho' : p.maps.counters k = o := ho
        simp only [MetricPool.stepAt, hp, MetricCall.work, ho', hr, MetricMap.setCounter, MetricMap.put]
      | some n =>
        refine ⟨.leaving (.increment k) (.bool true), some n, fun p hp ho => ?_⟩
        have ho' : p.maps.counters k = o := ho
        simp only [MetricPool.stepAt, hp, MetricCall.work, ho', hr, MetricMap.setCounter, MetricMap.put]
    | gauge k v =>
      simp only [MetricThread.changes, Option.some.injEq] at h
      subst h
      refine ⟨.leaving (.gauge k v) (.bool true), some v, fun p hp ho => ?_⟩
      simp only [MetricPool.stepAt, hp, MetricCall.work, MetricMap.setGauge, MetricMap.put]
    | _ => simp [MetricThread.changes] at h
  | _ => simp [MetricThread.changes] at h

theorem MetricThread.step_reads {t : MetricThread T} {n : Nat} (h : t.reads shards shard = some n) (mode : Mode) (i : Nat)
    (m : MetricMap T) :
    ∃ t', ∀ p : MetricPool T, p.threads[i]? = some t → (∀ c : MCell T, c.lock shards shard = n → p.maps.get c = m.get c) →
      p.stepAt mode shards shard i = { p with threads := p.threads.set i t' } := by
  cases t with
  | holding call =>
    cases call with
    | readCounter k =>
      simp only [MetricThread.reads, Option.some.injEq] at h
      refine ⟨.leaving (.readCounter k) (.count (m.counters k)), fun p hp hm => ?_⟩
      have : p.maps.counters k = m.counters k := hm (.counter k) h
      simp only [MetricPool.stepAt, hp, MetricCall.work, this]
    | readGauge k =>
      simp only [MetricThread.reads, Option.some.injEq] at h
      refine ⟨.leaving (.readGauge k) (.level (m.gauges k)), fun p hp hm => ?_⟩
      have : p.maps.gauges k = m.gauges k := hm (.gauge k) h
      simp only [MetricPool.stepAt, hp, MetricCall.work, this]
    | _ => simp [MetricThread.reads] at h
  | copying l s =>
    simp only [MetricThread.reads] at h
    by_cases hl : l < 2 * shards
    · rw [if_pos hl, Option.some.injEq] at h
      subst h
      refine ⟨.copying (l + 1) (copyShard shards shard l m s), fun p hp hm => ?_⟩
      have : copyShard shards shard l p.maps s = copyShard shards shard l m s := by
        apply MetricMap.ext_get
        intro c
        cases c with
        | counter k =>
          simp only [MetricMap.get, copyShard]
          by_cases hk : shard k = l
          · rw [if_pos hk, if_pos hk]; exact hm (.counter k) hk
          · rw [if_neg hk, if_neg hk]
        | gauge k =>
          simp only [MetricMap.get, copyShard]
          by_cases hk : shards + shard k = l
          · rw [if_pos hk, if_pos hk]; exact hm (.gauge k) hk
          · rw [if_neg hk, if_neg hk]
      simp only [MetricPool.stepAt, hp, hl, if_true, this]
    · rw [if_neg hl] at h; cases h
  | _ => simp [MetricThread.reads] at h

theorem MetricThread.step_rest {t : MetricThread T} (h : t.changes = none) (h' : t.reads shards shard = none) (mode : Mode) (i : Nat)
    {ths : List (MetricThread T)} (ht : ths[i]? = some t) (owned : Bool) (strong : Nat) :
    ∃ t' owned' strong', ∀ m : MetricMap T, MetricPool.stepAt mode shards shard ⟨ths, owned, strong, m⟩ i =
      ⟨ths.set i t', owned', strong', m⟩ := by
  cases t with
  | calling c =>
    cases c with
    | valid => exact ⟨.returned .valid (.bool (decide (0 < strong))), owned, strong, fun m => by simp only [MetricPool.stepAt, ht]⟩
    | snapshot =>
      cases owned with
      | true => exact ⟨.copying 0 ⟨fun _ => none, fun _ => none⟩, true, strong, fun m => by simp only [MetricPool.stepAt, ht, if_true]⟩
      | false => exact ⟨.calling .snapshot, false, strong, fun m => by simp [MetricPool.stepAt, ht, set_same ht]⟩
    | drop =>
      cases hb : (owned && !ths.any (·.borrows)) with
      | true => exact ⟨.returned .drop .unit, false, strong - 1, fun m => by simp only [MetricPool.stepAt, ht, hb, if_true]⟩
      | false =>
        exact ⟨.calling .drop, owned, strong, fun m => by
          simp only [MetricPool.stepAt, ht, hb, Bool.false_eq_true, if_false, set_same ht]⟩
    | increment k =>
      by_cases hs : strong = 0
      · exact ⟨.returned (.increment k) (.bool false), owned, strong, fun m => by simp only [MetricPool.stepAt, ht, hs, if_true, MetricCall.lost]⟩
      · exact ⟨.holding (.increment k), owned, strong + 1, fun m => by simp only [MetricPool.stepAt, ht, hs, if_false]⟩
    | gauge k v =>
      by_cases hs : strong = 0
      · exact ⟨.returned (.gauge k v) (.bool false), owned, strong, fun m => by simp only [MetricPool.stepAt, ht, hs, if_true, MetricCall.lost]⟩
      · exact ⟨.holding (.gauge k v), owned, strong + 1, fun m => by simp only [MetricPool.stepAt, ht, hs, if_false]⟩
    | readCounter k =>
      by_cases hs : strong = 0
      · exact ⟨.returned (.readCounter k) (.count none), owned, strong, fun m => by simp only [MetricPool.stepAt, ht, hs, if_true, MetricCall.lost]⟩
      · exact ⟨.holding (.readCounter k), owned, strong + 1, fun m => by simp only [MetricPool.stepAt, ht, hs, if_false]⟩
    | readGauge k =>
      by_cases hs : strong = 0
      · exact ⟨.returned (.readGauge k) (.level none), owned, strong, fun m => by simp only [MetricPool.stepAt, ht, hs, if_true, MetricCall.lost]⟩
      · exact ⟨.holding (.readGauge k), owned, strong + 1, fun m => by simp only [MetricPool.stepAt, ht, hs, if_false]⟩
  | holding c =>
    cases c with
    | increment k => simp [MetricThread.changes] at h
    | gauge k v => simp [MetricThread.changes] at h
    | readCounter k => simp [MetricThread.reads] at h'
    | readGauge k => simp [MetricThread.reads] at h'
    | valid => exact ⟨.leaving .valid .unit, owned, strong, fun m => by simp only [MetricPool.stepAt, ht, MetricCall.work]⟩
    | snapshot => exact ⟨.leaving .snapshot .unit, owned, strong, fun m => by simp only [MetricPool.stepAt, ht, MetricCall.work]⟩
    | drop => exact ⟨.leaving .drop .unit, owned, strong, fun m => by simp only [MetricPool.stepAt, ht, MetricCall.work]⟩
  | leaving c r => exact ⟨.returned c r, owned, strong - 1, fun m => by simp only [MetricPool.stepAt, ht]⟩
  | copying n s =>
    have hn : ¬ n < 2 * shards := by
      intro hn
      simp [MetricThread.reads, hn] at h'
    exact ⟨.returned .snapshot (.snap s), owned, strong, fun m => by simp only [MetricPool.stepAt, ht, hn, if_false]⟩
  | returned c r => exact ⟨.returned c r, owned, strong, fun m => by simp only [MetricPool.stepAt, ht, set_same ht]⟩

theorem MetricThread.changes_reads {t : MetricThread T} {c : MCell T} (h : t.changes = some c) : t.reads shards shard = none := by
  cases t with
  | holding call => cases call <;> first | rfl | simp [MetricThread.changes] at h
  | _ => simp [MetricThread.changes] at h

/-! ## The execution whose accesses take no time -/

/-- What holds of a situation with locks and the corresponding one without. -/
structure Metered (shards : Nat) (shard : T → Nat) (p : MLPool T) (q : MetricPool T) : Prop where
  base : q = p.base q.maps
  found : ∀ (i : Nat) t c o, p.threads[i]? = some (.owning t c o) → q.maps.get c = o
  others : ∀ d, (∀ (i : Nat) t c o, p.threads[i]? = some (.owning t c o) → c ≠ d) → q.maps.get d = p.maps.get d
  owning : ∀ (i : Nat) t c o, p.threads[i]? = some (.owning t c o) → t.changes = some c
  sharing : ∀ (i : Nat) t n, p.threads[i]? = some (.sharing t n) → t.reads shards shard = some n
  apart : ∀ (i j : Nat) t u l, i ≠ j → p.threads[i]? = some t → p.threads[j]? = some u → t.owns shards shard = some l →
    u.holds shards shard ≠ some l

theorem MLThread.owns_holds {t : MLThread T} {l : Nat} (h : t.owns shards shard = some l) : t.holds shards shard = some l := by
  cases t <;> simp_all [MLThread.owns, MLThread.holds]

theorem Metered.at {p : MLPool T} {q : MetricPool T} (h : Metered shards shard p q) {i : Nat} {t : MLThread T}
    (ht : p.threads[i]? = some t) : q.threads[i]? = some t.base := by
  rw [h.base]
  simp only [MLPool.base, List.getElem?_map, ht, Option.map_some]

private theorem base_at {p : MLPool T} {i : Nat} {t : MLThread T} (ht : p.threads[i]? = some t) (m : MetricMap T) :
    (p.base m).threads[i]? = some t.base := by
  simp only [MLPool.base, List.getElem?_map, ht, Option.map_some]

/-- A thread that is done with an access. -/
theorem Metered.leave {p : MLPool T} {q q' : MetricPool T} {m : MetricMap T} {owned : Bool} {strong : Nat}
    (h : Metered shards shard p q) {i : Nat} {t : MLThread T}
    (ht : p.threads[i]? = some t) (t' : MetricThread T)
    (hq : q' = ⟨q.threads.set i t', owned, strong, q'.maps⟩)
    (hfound : ∀ (j : Nat) u c o, j ≠ i → p.threads[j]? = some (.owning u c o) → q'.maps.get c = q.maps.get c)
    (hothers : ∀ d, (∀ (j : Nat) u c o, j ≠ i → p.threads[j]? = some (.owning u c o) → c ≠ d) → q'.maps.get d = m.get d) :
    Metered shards shard ⟨p.threads.set i (.free t'), owned, strong, m⟩ q' := by
  have hlt := (List.getElem?_eq_some_iff.mp ht).1
  refine ⟨?_, ?_, ?_, ?_, ?_, ?_⟩
  · rw [hq]
    simp only [MLPool.base, List.map_set, MLThread.base]
    rw [h.base]
    rfl
  · intro j u c o hj
    rcases getElem?_set_cases hj with ⟨-, e⟩ | ⟨hji, hj⟩
    · cases e
    · rw [hfound j u c o hji hj]; exact h.found j u c o hj
  · intro d hd
    refine hothers d fun j u c o hji hj => ?_
    exact hd j u c o (by rw [List.getElem?_set_ne (fun e => hji e.symm)]; exact hj)
  · intro j u c o hj
    rcases getElem?_set_cases hj with ⟨-, e⟩ | ⟨-, hj⟩
    · cases e
    · exact h.owning j u c o hj
  · intro j u n hj
    rcases getElem?_set_cases hj with ⟨-, e⟩ | ⟨-, hj⟩
    · cases e
    · exact h.sharing j u n hj
  · intro j k x y l hjk hj hk ho
    rcases getElem?_set_cases hj with ⟨-, e⟩ | ⟨-, hj⟩
    · subst e; cases ho
    · rcases getElem?_set_cases hk with ⟨-, e⟩ | ⟨-, hk⟩
      · subst e; simp [MLThread.holds]
      · exact h.apart j k x y l hjk hj hk ho

/-- A thread that acquires a lock. -/
theorem Metered.enter {p : MLPool T} {q : MetricPool T} (h : Metered shards shard p q) {i : Nat} {t : MetricThread T} {x : MLThread T}
    (ht : p.threads[i]? = some (.free t)) (hx : x.base = t)
    (hfound : ∀ t' c o, x = .owning t' c o → t'.changes = some c ∧ q.maps.get c = o)
    (hsh : ∀ t' n, x = .sharing t' n → t'.reads shards shard = some n)
    (ha : ∀ (j : Nat) u l, j ≠ i → p.threads[j]? = some u → (x.owns shards shard = some l → u.holds shards shard ≠ some l) ∧
      (x.holds shards shard = some l → u.owns shards shard ≠ some l)) :
    Metered shards shard { p with threads := p.threads.set i x } q := by
  have hlt := (List.getElem?_eq_some_iff.mp ht).1
  refine ⟨?_, ?_, ?_, ?_, ?_, ?_⟩
  · have e : (p.threads.set i x).map MLThread.base = p.threads.map MLThread.base := by
      rw [List.map_set, hx]
      exact set_same (by rw [List.getElem?_map, ht]; rfl)
    have hb := h.base
    simp only [MLPool.base] at hb ⊢
    rw [e]
    exact hb
  · intro j u c o hj
    rcases getElem?_set_cases hj with ⟨-, e⟩ | ⟨-, hj⟩
    · exact (hfound u c o e.symm).2
    · exact h.found j u c o hj
  · intro d hd
    refine h.others d fun j u c o hj => ?_
    by_cases hji : i = j
    · subst hji; rw [ht] at hj; cases hj
    · exact hd j u c o (by rw [List.getElem?_set_ne hji]; exact hj)
  · intro j u c o hj
    rcases getElem?_set_cases hj with ⟨-, e⟩ | ⟨-, hj⟩
    · exact (hfound u c o e.symm).1
    · exact h.owning j u c o hj
  · intro j u n hj
    rcases getElem?_set_cases hj with ⟨-, e⟩ | ⟨-, hj⟩
    · exact hsh u n e.symm
    · exact h.sharing j u n hj
  · intro j k y z l hjk hj hk ho
    rcases getElem?_set_cases hj with ⟨ej, e⟩ | ⟨hji, hj⟩
    · subst e
      rcases getElem?_set_cases hk with ⟨ek, -⟩ | ⟨hki, hk⟩
      · exact absurd (ej.trans ek.symm) hjk
      · exact (ha k z l hki hk).1 ho
    · have gj := hj
      rcases getElem?_set_cases hk with ⟨-, e⟩ | ⟨-, hk⟩
      · subst e
        intro hh
        exact (ha j y l hji gj).2 hh ho
      · exact h.apart j k y z l hjk hj hk ho

/-- One step with locks is at most one without. -/
theorem Metered.step {p p' : MLPool T} {q : MetricPool T} {i : Nat} (h : Metered shards shard p q)
    (hs : MLStep mode shards shard p i p') : ∃ sched, Metered shards shard p' (q.exec mode shards shard sched) := by
  cases hs with
  | @lock t c ht hc hf =>
    refine ⟨[], h.enter (x := .owning t c (p.maps.get c)) ht rfl ?_ (fun t' n e => by cases e) ?_⟩
    · intro t' c' o e
      cases e
      refine ⟨hc, h.others c fun j u c' o' hj e => ?_⟩
      subst e
      exact hf j _ hj rfl
    · intro j u l hji hj
      refine ⟨fun e => ?_, fun e => ?_⟩
      · rw [← (e : some _ = some l)]; exact hf j u hj
      · intro ho
        have := MLThread.owns_holds ho
        rw [← (e : some _ = some l)] at this
        exact hf j u hj this
  | @draft t c o v ht =>
    refine ⟨[], h.base, h.found, ?_, h.owning, h.sharing, h.apart⟩
    intro d hd
    have hne : d ≠ c := fun e => hd i t c o ht e.symm
    show q.maps.get d = _
    rw [h.others d hd, MetricMap.put_get_ne _ hne]
  | @commit t c o t' ht ht' =>
    obtain ⟨x, v, he⟩ := MetricThread.step_changes (h.owning i t c o ht) mode shards shard i o
    have e1 := he (p.base (p.maps.put c o)) (base_at ht _) (MetricMap.put_get _ _ _)
    have e2 := he q (h.at ht) (h.found i t c o ht)
    have hx : x = t' := by
      rw [e1] at ht'
      simp only [MLPool.base] at ht'
      rw [List.getElem?_set_self (by simpa using (List.getElem?_eq_some_iff.mp ht).1)] at ht'
      exact Option.some.inj ht'
    subst hx
    refine ⟨[i], ?_⟩
    show Metered shards shard _ (q.stepAt mode shards shard i)
    rw [e1, e2]
    refine h.leave (owned := p.owned) (strong := p.strong) ht x ?_ ?_ ?_
    · have := h.base
      have e3 : q.owned = p.owned := by rw [this]; rfl
      have e4 : q.strong = p.strong := by rw [this]; rfl
      simp only [e3, e4]
    · intro j u d o' hji hj
      have hne : d ≠ c := by
        intro e
        subst e
        exact h.apart j i _ _ _ hji hj ht rfl rfl
      exact MetricMap.put_get_ne _ hne _
    · intro d hd
      show (q.maps.put c v).get d = ((p.maps.put c o).put c v).get d
      rw [MetricMap.put_put]
      by_cases hdc : d = c
      · subst hdc; rw [MetricMap.put_get, MetricMap.put_get]
      · rw [MetricMap.put_get_ne _ hdc, MetricMap.put_get_ne _ hdc]
        refine h.others d fun j u c' o' hj e => ?_
        by_cases hji : j = i
        · subst hji; rw [ht] at hj; cases hj; exact hdc e.symm
        · exact hd j u c' o' hji hj e
  | @share t n ht hn hf =>
    refine ⟨[], h.enter (x := .sharing t n) ht rfl (fun t' c o e => by cases e) (fun t' n' e => by cases e; exact hn) ?_⟩
    intro j u l hji hj
    refine ⟨fun e => (by cases e), fun e => ?_⟩
    rw [← (e : some _ = some l)]
    exact hf j u hj
  | @release t n t' ht ht' =>
    have hr := h.sharing i t n ht
    obtain ⟨x, he⟩ := MetricThread.step_reads hr mode i p.maps
    have e1 := he (p.base p.maps) (base_at ht _) (fun _ _ => rfl)
    have e2 := he q (h.at ht) (by
      intro c hc
      refine h.others c fun j u c' o hj e => ?_
      subst e
      have hji : j ≠ i := fun e => by subst e; rw [ht] at hj; cases hj
      exact h.apart j i _ _ n hji hj ht (by rw [← hc]; rfl) rfl)
    have hx : x = t' := by
      rw [e1] at ht'
      simp only [MLPool.base] at ht'
      rw [List.getElem?_set_self (by simpa using (List.getElem?_eq_some_iff.mp ht).1)] at ht'
      exact Option.some.inj ht'
    subst hx
    refine ⟨[i], ?_⟩
    show Metered shards shard _ (q.stepAt mode shards shard i)
    rw [e1, e2]
    refine h.leave (owned := p.owned) (strong := p.strong) ht x ?_ (fun _ _ _ _ _ _ => rfl) ?_
    · have := h.base
      have e3 : q.owned = p.owned := by rw [this]; rfl
      have e4 : q.strong = p.strong := by rw [this]; rfl
      simp only [e3, e4]
    · intro d hd
      refine h.others d fun j u c' o' hj e => ?_
      by_cases hji : j = i
      · subst hji; rw [ht] at hj; cases hj
      · exact hd j u c' o' hji hj e
  | @plain t t' ht hc hr ht' =>
    obtain ⟨x, ow, st, he⟩ := MetricThread.step_rest hc hr mode i (base_at ht p.maps) p.owned p.strong
    have e1 : (p.base p.maps).stepAt mode shards shard i = _ := he p.maps
    have e2 : q.stepAt mode shards shard i = ⟨q.threads.set i x, ow, st, q.maps⟩ := by
      have := he q.maps
      have hq : q = ⟨(p.base p.maps).threads, p.owned, p.strong, q.maps⟩ := h.base
      rw [← hq] at this
      rw [this, congrArg MetricPool.threads hq]
    have hx : x = t' := by
      rw [e1] at ht'
      simp only [MLPool.base] at ht'
      rw [List.getElem?_set_self (by simpa using (List.getElem?_eq_some_iff.mp ht).1)] at ht'
      exact Option.some.inj ht'
    subst hx
    refine ⟨[i], ?_⟩
    show Metered shards shard _ (q.stepAt mode shards shard i)
    rw [e1, e2]
    refine h.leave (owned := ow) (strong := st) ht x rfl (fun _ _ _ _ _ _ => rfl) ?_
    intro d hd
    refine h.others d fun j u c' o' hj e => ?_
    by_cases hji : j = i
    · subst hji; rw [ht] at hj; cases hj
    · exact hd j u c' o' hji hj e

theorem Metered.steps {p p' : MLPool T} {q : MetricPool T} (h : Metered shards shard p q) (hs : MLSteps mode shards shard p p') :
    ∃ sched, Metered shards shard p' (q.exec mode shards shard sched) := by
  induction hs with
  | refl => exact ⟨[], h⟩
  | tail _ hstep ih =>
    obtain ⟨s, hs⟩ := ih
    obtain ⟨s', hs'⟩ := hs.step hstep
    exact ⟨s ++ s', by rw [mexec_append]; exact hs'⟩

theorem Metered.start (shards : Nat) (shard : T → Nat) (calls : List (MetricCall T)) :
    Metered shards shard (MLPool.start calls) (MetricPool.start calls) := by
  have hfree : ∀ (i : Nat) t, (MLPool.start calls).threads[i]? = some t → ∃ c, t = .free (.calling c) := by
    intro i t h
    simp only [MLPool.start, List.getElem?_map, Option.map_eq_some_iff] at h
    obtain ⟨c, -, e⟩ := h
    exact ⟨c, e.symm⟩
  refine ⟨?_, ?_, fun _ _ => rfl, ?_, ?_, ?_⟩
  · simp [MetricPool.start, MLPool.start, MLPool.base, MLThread.base]
  · intro i t c o h; obtain ⟨_, e⟩ := hfree i _ h; cases e
  · intro i t c o h; obtain ⟨_, e⟩ := hfree i _ h; cases e
  · intro i t n h; obtain ⟨_, e⟩ := hfree i _ h; cases e
  · intro i j t u l _ h _ ho; obtain ⟨_, e⟩ := hfree i _ h; subst e; cases ho

/-- C169. The accesses of the calls take any time, in any order, and entries look like anything while they are being changed.
At every moment there is an execution in which every access is made at one moment, after which the threads are at the same
points of their calls, with the same answers; the instance exists or not as in it; entries nobody is just changing are as in
it, and those being changed are there as they were found. -/
theorem C169_moments (mode : Mode) (shards : Nat) (shard : T → Nat) (calls : List (MetricCall T)) (p : MLPool T)
    (h : MLSteps mode shards shard (MLPool.start calls) p) :
    ∃ sched q, q = (MetricPool.start calls).exec mode shards shard sched ∧ q.threads = p.threads.map MLThread.base ∧
      q.owned = p.owned ∧ q.strong = p.strong ∧
      (∀ t, (∀ x ∈ p.threads, ∀ u o, x ≠ .owning u (.counter t) o) → p.maps.counters t = q.maps.counters t) ∧
      (∀ t, (∀ x ∈ p.threads, ∀ u o, x ≠ .owning u (.gauge t) o) → p.maps.gauges t = q.maps.gauges t) ∧
      ∀ u c o, .owning u c o ∈ p.threads → q.maps.get c = o := by
  obtain ⟨sched, hs⟩ := (Metered.start shards shard calls).steps h
  have hb := hs.base
  refine ⟨sched, _, rfl, congrArg MetricPool.threads hb, congrArg MetricPool.owned hb, congrArg MetricPool.strong hb, ?_, ?_, ?_⟩
  · intro t ht
    refine (hs.others (.counter t) fun i u c o hi e => ?_).symm
    subst e
    exact ht _ (List.mem_of_getElem? hi) u o rfl
  · intro t ht
    refine (hs.others (.gauge t) fun i u c o hi e => ?_).symm
    subst e
    exact ht _ (List.mem_of_getElem? hi) u o rfl
  · intro u c o hm
    obtain ⟨i, hi⟩ := List.getElem?_of_mem hm
    exact hs.found i u c o hi

/-- C169: when no lock is held the whole situation is one of an execution in which every access is made at one moment. -/
theorem C169_one_step (mode : Mode) (shards : Nat) (shard : T → Nat) (calls : List (MetricCall T)) (p : MLPool T)
    (h : MLSteps mode shards shard (MLPool.start calls) p) (hq : ∀ x ∈ p.threads, ∃ t, x = .free t) :
    ∃ sched, (MetricPool.start calls).exec mode shards shard sched = p.base p.maps := by
  obtain ⟨sched, hs⟩ := (Metered.start shards shard calls).steps h
  refine ⟨sched, ?_⟩
  rw [hs.base]
  congr 1
  apply MetricMap.ext_get
  intro c
  refine hs.others c fun i t c' o hi => ?_
  obtain ⟨t', e⟩ := hq _ (List.mem_of_getElem? hi)
  cases e

/-- The same situation, with nobody holding a lock. -/
def Spec.unlocked (q : MetricPool T) : MLPool T :=
  { threads := q.threads.map .free, owned := q.owned, strong := q.strong, maps := q.maps }

theorem MLSteps.trans {p q r : MLPool T} (h : MLSteps mode shards shard p q) (h' : MLSteps mode shards shard q r) :
    MLSteps mode shards shard p r := by
  induction h' with
  | refl => exact h
  | tail _ hs ih => exact .tail ih hs

private theorem unlocked_base (q : MetricPool T) : (unlocked q).base q.maps = q := by
  simp [unlocked, MLPool.base, Function.comp_def, MLThread.base]

private theorem unlocked_after (q q' : MetricPool T) (i : Nat) (t : MetricThread T) (h : q'.threads = q.threads.set i t) :
    (unlocked q).after i t q' = unlocked q' := by
  simp [unlocked, MLPool.after, h, List.map_set]

theorem unlocked_step (mode : Mode) (shards : Nat) (shard : T → Nat) (q : MetricPool T) (i : Nat) :
    MLSteps mode shards shard (unlocked q) (unlocked (q.stepAt mode shards shard i)) := by
  cases ht : q.threads[i]? with
  | none =>
    rcases mstep_cases mode shards shard q i with e | ⟨t, h, -⟩
    · rw [e]; exact .refl
    · rw [ht] at h; cases h
  | some t =>
    have hi : (unlocked q).threads[i]? = some (.free t) := by
      simp only [unlocked, List.getElem?_map, ht]; rfl
    have hlt := (List.getElem?_eq_some_iff.mp ht).1
    have hlt' : i < (unlocked q).threads.length := by simpa [unlocked] using hlt
    have hno : ∀ (j : Nat) u, (unlocked q).threads[j]? = some u → ∃ t, u = .free t := by
      intro j u hu
      simp only [unlocked, List.getElem?_map, Option.map_eq_some_iff] at hu
      obtain ⟨x, -, e⟩ := hu
      exact ⟨x, e.symm⟩
    cases hc : t.changes with
    | some c =>
      have h1 := MLStep.lock (mode := mode) (shards := shards) (shard := shard) hi hc (by
        intro j u hu; obtain ⟨x, rfl⟩ := hno j u hu; simp [MLThread.holds])
      obtain ⟨x, v, he⟩ := MetricThread.step_changes hc mode shards shard i (q.maps.get c)
      have e2 := he q ht rfl
      have hbase : (MLPool.base { unlocked q with threads := (unlocked q).threads.set i (.owning t c ((unlocked q).maps.get c)) }
          (((unlocked q).maps.put c ((unlocked q).maps.get c)))) = q := by
        have e : (unlocked q).maps.put c ((unlocked q).maps.get c) = q.maps := MetricMap.put_self _ _
        rw [e]
        simp only [MLPool.base, List.map_set, MLThread.base]
        have : ((unlocked q).threads.map MLThread.base) = q.threads := by
          simp [unlocked, Function.comp_def, MLThread.base]
        rw [this, set_same ht]
        rfl
      have h2 := MLStep.commit (mode := mode) (shards := shards) (shard := shard) (i := i) (t := t) (c := c)
        (o := (unlocked q).maps.get c) (t' := x)
        (p := { unlocked q with threads := (unlocked q).threads.set i (.owning t c ((unlocked q).maps.get c)) })
        (List.getElem?_set_self hlt') (by
          show (MetricPool.stepAt mode shards shard (MLPool.base _ (MetricMap.put (unlocked q).maps _ _)) i).threads[i]? = _
          rw [hbase, e2]
          exact List.getElem?_set_self hlt)
      refine .tail (i := i) (.tail .refl h1) ?_
      have e3 : unlocked (q.stepAt mode shards shard i) =
          MLPool.after { unlocked q with threads := (unlocked q).threads.set i (.owning t c ((unlocked q).maps.get c)) } i x
            (q.stepAt mode shards shard i) := by
        rw [← unlocked_after q _ i x (by rw [e2])]
        simp only [MLPool.after, List.set_set]
      rw [e3]
      have e4 : (MetricPool.stepAt mode shards shard (MLPool.base
          { unlocked q with threads := (unlocked q).threads.set i (.owning t c ((unlocked q).maps.get c)) }
          (((unlocked q).maps.put c ((unlocked q).maps.get c)))) i) = q.stepAt mode shards shard i := by rw [hbase]
      rw [← e4]
      exact h2
    | none =>
      cases hr : t.reads shards shard with
      | some n =>
        have h1 := MLStep.share (mode := mode) (shards := shards) (shard := shard) hi hr (by
          intro j u hu; obtain ⟨x, rfl⟩ := hno j u hu; simp [MLThread.owns])
        obtain ⟨x, he⟩ := MetricThread.step_reads hr mode i q.maps
        have e2 := he q ht (fun _ _ => rfl)
        have hbase : (MLPool.base { unlocked q with threads := (unlocked q).threads.set i (.sharing t n) } (unlocked q).maps) = q := by
          simp only [MLPool.base, List.map_set, MLThread.base]
          have : ((unlocked q).threads.map MLThread.base) = q.threads := by
            simp [unlocked, Function.comp_def, MLThread.base]
          rw [this, set_same ht]
          rfl
        have h2 := MLStep.release (mode := mode) (shards := shards) (shard := shard) (i := i) (t := t) (n := n) (t' := x)
          (p := { unlocked q with threads := (unlocked q).threads.set i (.sharing t n) })
          (List.getElem?_set_self hlt') (by
            show (MetricPool.stepAt mode shards shard (MLPool.base _ (unlocked q).maps) i).threads[i]? = _
            rw [hbase, e2]
            exact List.getElem?_set_self hlt)
        refine .tail (i := i) (.tail .refl h1) ?_
        have e3 : unlocked (q.stepAt mode shards shard i) =
            MLPool.after { unlocked q with threads := (unlocked q).threads.set i (.sharing t n) } i x
              (q.stepAt mode shards shard i) := by
          rw [← unlocked_after q _ i x (by rw [e2])]
          simp only [MLPool.after, List.set_set]
        rw [e3]
        have e4 : (MetricPool.stepAt mode shards shard (MLPool.base
            { unlocked q with threads := (unlocked q).threads.set i (.sharing t n) } (unlocked q).maps) i) =
            q.stepAt mode shards shard i := by rw [hbase]
        rw [← e4]
        exact h2
      | none =>
        obtain ⟨x, ow, st, he⟩ := MetricThread.step_rest hc hr mode i ht q.owned q.strong
        have e2 : q.stepAt mode shards shard i = _ := he q.maps
        have h1 := MLStep.plain (mode := mode) (shards := shards) (shard := shard) (t' := x) hi hc hr (by
          rw [show (unlocked q).base (unlocked q).maps = q from unlocked_base q, e2]
          exact List.getElem?_set_self hlt)
        rw [show (unlocked q).base (unlocked q).maps = q from unlocked_base q, unlocked_after q _ i x (by rw [e2])] at h1
        exact .tail .refl h1

/-- C169: conversely, every execution in which every access is made at one moment is possible. -/
theorem C169_all_possible (mode : Mode) (shards : Nat) (shard : T → Nat) (calls : List (MetricCall T)) (sched : List Nat) :
    MLSteps mode shards shard (MLPool.start calls) (unlocked ((MetricPool.start calls).exec mode shards shard sched)) := by
  have hstart : MLPool.start calls = unlocked (MetricPool.start calls) := by
    simp [MLPool.start, unlocked, MetricPool.start]
  rw [hstart]
  generalize MetricPool.start calls = q
  induction sched generalizing q with
  | nil => exact .refl
  | cons i is ih => exact (unlocked_step mode shards shard q i).trans (ih _)

/-! ## Who can go on -/

/-- Thread `i` can go on. -/
def Spec.MeterMoves (mode : Mode) (shards : Nat) (shard : T → Nat) (p : MLPool T) (i : Nat) : Prop :=
  ∃ p', MLStep mode shards shard p i p' ∧ p'.threads[i]? ≠ p.threads[i]?

/-- Thread `i` waits for thread `j`: for a lock that `j` holds, or to drop the instance while `j` takes a snapshot of it. -/
inductive Spec.MeterWaits (shards : Nat) (shard : T → Nat) (p : MLPool T) (i j : Nat) : Prop
  | change {t c u} : p.threads[i]? = some (.free t) → t.changes = some c → i ≠ j → p.threads[j]? = some u →
      u.holds shards shard = some (c.lock shards shard) → MeterWaits shards shard p i j
  | read {t n u} : p.threads[i]? = some (.free t) → t.reads shards shard = some n → i ≠ j → p.threads[j]? = some u →
      u.owns shards shard = some n → MeterWaits shards shard p i j
  | drop {u} : p.threads[i]? = some (.free (.calling .drop)) → i ≠ j → p.threads[j]? = some u → u.base.borrows = true →
      MeterWaits shards shard p i j

/-- Following whom one thread waits for after another one comes within `n` threads to one that can go on. -/
inductive Spec.MeterLeads (mode : Mode) (shards : Nat) (shard : T → Nat) (p : MLPool T) : Nat → Nat → Prop
  | here {i} : MeterMoves mode shards shard p i → MeterLeads mode shards shard p 0 i
  | there {i j n} : MeterWaits shards shard p i j → MeterLeads mode shards shard p n j → MeterLeads mode shards shard p (n + 1) i

/-- The call has returned, or it is one of the owner of the instance (a snapshot, a drop) after the instance has been
dropped, which Rust does not allow. -/
def Spec.MeterSettled (p : MLPool T) (x : MLThread T) : Prop :=
  (∃ c r, x = .free (.returned c r)) ∨ (p.owned = false ∧ (x = .free (.calling .snapshot) ∨ x = .free (.calling .drop)))

/-- How far a call is from returning. -/
def MetricThread.weight (shards : Nat) : MetricThread T → Nat
  | .returned _ _ => 0
  | .leaving _ _ => 1
  | .holding _ => 2
  | .copying n _ => 2 * shards - n + 1
  | .calling .snapshot => 2 * shards + 2
  | .calling _ => 3

/-- The same, with the locks. -/
def MLThread.weight (shards : Nat) : MLThread T → Nat
  | .free t => 2 * t.weight shards + 1
  | .owning t _ _ | .sharing t _ => 2 * t.weight shards

theorem MStep.weight {p q : MetricPool T} {i : Nat} {t : MetricThread T} (h : MStep mode shards shard p i t q) :
    ∃ t', q.threads = p.threads.set i t' ∧ t'.weight shards < t.weight shards := by
  cases h with
  | valid => exact ⟨_, rfl, by simp [MetricThread.weight]⟩
  | copy => exact ⟨_, rfl, by simp only [MetricThread.weight]; omega⟩
  | drop => exact ⟨_, rfl, by simp [MetricThread.weight]⟩
  | lose c h1 h2 h3 => exact ⟨_, rfl, by cases c <;> simp_all [MetricThread.weight]⟩
  | take c h1 h2 h3 => exact ⟨_, rfl, by cases c <;> simp_all [MetricThread.weight]⟩
  | work => exact ⟨_, rfl, by simp [MetricThread.weight]⟩
  | leave => exact ⟨_, rfl, by simp [MetricThread.weight]⟩
  | more n s hn => exact ⟨_, rfl, by simp only [MetricThread.weight]; omega⟩
  | copied n s hn => exact ⟨_, rfl, by simp only [MetricThread.weight]; omega⟩

/-- A step of a call, or none. -/
theorem mstep_weight (mode : Mode) (shards : Nat) (shard : T → Nat) {p : MetricPool T} {i : Nat} {t : MetricThread T}
    (ht : p.threads[i]? = some t) : p.stepAt mode shards shard i = p ∨
      ∃ t', (p.stepAt mode shards shard i).threads = p.threads.set i t' ∧ t'.weight shards < t.weight shards := by
  rcases mstep_cases mode shards shard p i with e | ⟨t0, h0, hs⟩
  · exact .inl e
  · rw [ht] at h0
    cases h0
    exact .inr hs.weight

/-- The calls that cannot go on. -/
def MetricThread.stuck (owned borrowed : Bool) : MetricThread T → Bool
  | .returned _ _ => true
  | .calling .snapshot => !owned
  | .calling .drop => !owned || borrowed
  | _ => false

theorem mstep_stuck (mode : Mode) (shards : Nat) (shard : T → Nat) {p : MetricPool T} {i : Nat} {t : MetricThread T}
    (ht : p.threads[i]? = some t) : p.stepAt mode shards shard i = p ↔ t.stuck p.owned (p.threads.any (·.borrows)) = true := by
  have hlt := (List.getElem?_eq_some_iff.mp ht).1
  have hne : ∀ (q : MetricPool T) t', q.threads = p.threads.set i t' → t' ≠ t → q ≠ p := by
    intro q t' hq hn e
    rw [e] at hq
    have : p.threads[i]? = (p.threads.set i t')[i]? := by rw [← hq]
    rw [List.getElem?_set_self hlt, ht] at this
    exact hn (Option.some.inj this).symm
  cases t with
  | returned c r => simp [MetricPool.stepAt, ht, MetricThread.stuck]
  | leaving c r => 
    simp only [MetricPool.stepAt, ht, MetricThread.stuck, Bool.false_eq_true, iff_false]
    exact hne _ _ rfl (by simp)
  | holding c =>
    simp only [MetricPool.stepAt, ht, MetricThread.stuck, Bool.false_eq_true, iff_false]
    exact hne _ _ rfl (by simp)
  | copying n s =>
    simp only [MetricPool.stepAt, ht, MetricThread.stuck, Bool.false_eq_true, iff_false]
    split
    · exact hne _ _ rfl (by simp)
    · exact hne _ _ rfl (by simp)
  | calling c =>
    cases c with
    | valid =>
      simp only [MetricPool.stepAt, ht, MetricThread.stuck, Bool.false_eq_true, iff_false]
      exact hne _ _ rfl (by simp)
    | snapshot =>
      simp only [MetricPool.stepAt, ht, MetricThread.stuck]
      cases p.owned with
      | true =>
        simp only [if_true, Bool.not_true, Bool.false_eq_true, iff_false]
        exact hne _ _ rfl (by simp)
      | false => simp
    | drop =>
      simp only [MetricPool.stepAt, ht, MetricThread.stuck]
      split
      · next h =>
        simp only [Bool.and_eq_true, Bool.not_eq_true'] at h
        rw [h.1, h.2]
        simp only [Bool.not_true, Bool.or_self, Bool.false_eq_true, iff_false]
        exact hne _ _ rfl (by simp)
      · next h =>
        simp only [true_iff]
        generalize p.owned = a at *
        generalize (p.threads.any (·.borrows)) = b at *
        cases a <;> cases b <;> simp_all
    | _ =>
      simp only [MetricPool.stepAt, ht, MetricThread.stuck, Bool.false_eq_true, iff_false]
      split
      · exact hne _ _ rfl (by simp)
      · exact hne _ _ rfl (by simp)

theorem MetricThread.changes_stuck {t : MetricThread T} {c : MCell T} (h : t.changes = some c) (a b : Bool) : t.stuck a b = false := by
  cases t with
  | holding call => rfl
  | _ => simp [MetricThread.changes] at h

theorem MetricThread.reads_stuck {t : MetricThread T} {n : Nat} (h : t.reads shards shard = some n) (a b : Bool) : t.stuck a b = false := by
  cases t with
  | holding call => rfl
  | copying n s => rfl
  | _ => simp [MetricThread.reads] at h

/-- Somebody takes a snapshot. -/
def MLPool.borrowed (p : MLPool T) : Bool := (p.threads.map MLThread.base).any (·.borrows)

/-- An access that is made: the thread comes nearer to returning. -/
theorem MLPool.after_weight {p : MLPool T} {i : Nat} {x : MLThread T} (hx : p.threads[i]? = some x) (m : MetricMap T)
    (hns : x.base.stuck p.owned p.borrowed = false) {t' : MetricThread T}
    (ht' : ((p.base m).stepAt mode shards shard i).threads[i]? = some t') : t'.weight shards < x.base.weight shards := by
  rcases mstep_weight mode shards shard (base_at hx m) with e | ⟨t1, e, hw⟩
  · have := (mstep_stuck mode shards shard (base_at hx m)).mp e
    rw [show (p.base m).owned = p.owned from rfl,
      show (p.base m).threads.any (·.borrows) = p.borrowed from rfl, hns] at this
    cases this
  · rw [e, List.getElem?_set_self (by
      have := (List.getElem?_eq_some_iff.mp hx).1
      simpa [MLPool.base] using this)] at ht'
    cases ht'
    exact hw

/-- There is always a next point. -/
theorem MLPool.after_some {p : MLPool T} {i : Nat} {x : MLThread T} (hx : p.threads[i]? = some x) (m : MetricMap T) :
    ∃ t', ((p.base m).stepAt mode shards shard i).threads[i]? = some t' := by
  rcases mstep_weight mode shards shard (base_at hx m) with e | ⟨t1, e, -⟩
  · exact ⟨_, by rw [e]; exact base_at hx m⟩
  · exact ⟨t1, by
      rw [e]
      exact List.getElem?_set_self (by
        have := (List.getElem?_eq_some_iff.mp hx).1
        simpa [MLPool.base] using this)⟩

theorem meterMoves_iff {p : MLPool T} {q : MetricPool T} {i : Nat} (hm : Metered shards shard p q) :
    MeterMoves mode shards shard p i ↔ ∃ x, p.threads[i]? = some x ∧ ((∀ t, x ≠ .free t) ∨ ∃ t, x = .free t ∧
      t.stuck p.owned p.borrowed = false ∧
      (∀ c, t.changes = some c → ∀ (j : Nat) u, p.threads[j]? = some u → u.holds shards shard ≠ some (c.lock shards shard)) ∧
      (∀ n, t.reads shards shard = some n → ∀ (j : Nat) u, p.threads[j]? = some u → u.owns shards shard ≠ some n)) := by
  constructor
  · rintro ⟨p', hs, hne⟩
    cases hs with
    | @lock t c ht hc hf =>
      refine ⟨_, ht, .inr ⟨t, rfl, MetricThread.changes_stuck hc _ _, ?_, ?_⟩⟩
      · intro c' hc'; rw [hc] at hc'; cases hc'; exact hf
      · intro n hn; rw [MetricThread.changes_reads hc] at hn; cases hn
    | draft => exact absurd rfl hne
    | commit ht => exact ⟨_, ht, .inl fun _ => by simp⟩
    | @share t n ht hn hf =>
      refine ⟨_, ht, .inr ⟨t, rfl, MetricThread.reads_stuck hn _ _, ?_, ?_⟩⟩
      · intro c' hc'; rw [MetricThread.changes_reads hc'] at hn; cases hn
      · intro n' hn'; rw [hn] at hn'; cases hn'; exact hf
    | release ht => exact ⟨_, ht, .inl fun _ => by simp⟩
    | @plain t t' ht hc hr ht' =>
      refine ⟨_, ht, .inr ⟨t, rfl, ?_, ?_, ?_⟩⟩
      · cases hst : t.stuck p.owned p.borrowed with
        | false => rfl
        | true =>
          exfalso
          apply hne
          have e := (mstep_stuck mode shards shard (base_at ht p.maps)).mpr hst
          rw [e, base_at ht] at ht'
          cases ht'
          show (p.threads.set i _)[i]? = _
          rw [show (MLThread.free t).base = t from rfl, set_same ht]
      · intro c' hc'; rw [hc] at hc'; cases hc'
      · intro n' hn'; rw [hr] at hn'; cases hn'
  · rintro ⟨x, hx, h⟩
    have hlt := (List.getElem?_eq_some_iff.mp hx).1
    have hself : ∀ y, (p.threads.set i y)[i]? = some y := fun y => List.getElem?_set_self hlt
    cases x with
    | owning t c o =>
      obtain ⟨t', ht'⟩ := MLPool.after_some (mode := mode) (shards := shards) (shard := shard) hx (p.maps.put c o)
      refine ⟨_, .commit hx ht', ?_⟩
      show (p.threads.set i _)[i]? ≠ _
      rw [hself, hx]; simp
    | sharing t n =>
      obtain ⟨t', ht'⟩ := MLPool.after_some (mode := mode) (shards := shards) (shard := shard) hx p.maps
      refine ⟨_, .release hx ht', ?_⟩
      show (p.threads.set i _)[i]? ≠ _
      rw [hself, hx]; simp
    | free t =>
      obtain ⟨t0, e, hst, h1, h2⟩ := h.resolve_left (fun h => h t rfl)
      cases e
      cases hc : t.changes with
      | some c =>
        refine ⟨_, .lock hx hc (h1 c hc), ?_⟩
        rw [hself, hx]; simp
      | none =>
        cases hr : t.reads shards shard with
        | some n =>
          refine ⟨_, .share hx hr (h2 n hr), ?_⟩
          rw [hself, hx]; simp
        | none =>
          obtain ⟨t', ht'⟩ := MLPool.after_some (mode := mode) (shards := shards) (shard := shard) hx p.maps
          refine ⟨_, .plain hx hc hr ht', ?_⟩
          show (p.threads.set i _)[i]? ≠ _
          rw [hself, hx]
          intro e
          cases e
          exact absurd (MLPool.after_weight hx p.maps hst ht') (Nat.lt_irrefl _)

theorem MLThread.holds_busy {u : MLThread T} {l : Nat} (h : u.holds shards shard = some l) : ∀ t, u ≠ .free t := by
  intro t e; subst e; cases h

/-- A call that takes a snapshot can go on, or waits for one that can. -/
private theorem leads_of_holder {p : MLPool T} {q : MetricPool T} (hm : Metered shards shard p q) {j : Nat} {u : MLThread T} {l : Nat}
    (hu : p.threads[j]? = some u) (h : u.holds shards shard = some l) : MeterLeads mode shards shard p 0 j :=
  .here ((meterMoves_iff hm).mpr ⟨u, hu, .inl (MLThread.holds_busy h)⟩)

private theorem Metered.leads {p : MLPool T} {q : MetricPool T} (hm : Metered shards shard p q) {i : Nat} {x : MLThread T}
    (hx : p.threads[i]? = some x) (hst : x.base.stuck p.owned p.borrowed = false) :
    ∃ n, n ≤ 1 ∧ MeterLeads mode shards shard p n i := by
  by_cases hmv : MeterMoves mode shards shard p i
  · exact ⟨0, by omega, .here hmv⟩
  rw [meterMoves_iff hm] at hmv
  cases x with
  | owning t c o => exact absurd ⟨_, hx, .inl fun _ => by simp⟩ hmv
  | sharing t n => exact absurd ⟨_, hx, .inl fun _ => by simp⟩ hmv
  | free t =>
    have : ¬ ((∀ c, t.changes = some c → ∀ (j : Nat) u, p.threads[j]? = some u → u.holds shards shard ≠ some (c.lock shards shard)) ∧
        (∀ n, t.reads shards shard = some n → ∀ (j : Nat) u, p.threads[j]? = some u → u.owns shards shard ≠ some n)) :=
      fun h => hmv ⟨_, hx, .inr ⟨t, rfl, hst, h.1, h.2⟩⟩
    have hji : ∀ {j : Nat} {u l}, p.threads[j]? = some u → u.holds shards shard = some l → i ≠ j := by
      intro j u l hu hh e
      subst e
      rw [hx] at hu
      cases hu
      cases hh
    cases hc : t.changes with
    | some c =>
      have hex : ∃ (j : Nat) (u : MLThread T), p.threads[j]? = some u ∧ u.holds shards shard = some (c.lock shards shard) := by
        apply Classical.byContradiction
        intro hno
        apply this
        refine ⟨?_, ?_⟩
        · intro c' hc' j u hu hh; rw [hc] at hc'; cases hc'; exact hno ⟨j, u, hu, hh⟩
        · intro n hn; rw [MetricThread.changes_reads hc] at hn; cases hn
      obtain ⟨j, u, hu, hh⟩ := hex
      exact ⟨1, by omega, .there (.change hx hc (hji hu hh) hu hh) (leads_of_holder hm hu hh)⟩
    | none =>
      cases hr : t.reads shards shard with
      | some n =>
        have hex : ∃ (j : Nat) (u : MLThread T), p.threads[j]? = some u ∧ u.owns shards shard = some n := by
          apply Classical.byContradiction
          intro hno
          apply this
          refine ⟨?_, ?_⟩
          · intro c' hc'; rw [hc] at hc'; cases hc'
          · intro n' hn' j u hu hh; rw [hr] at hn'; cases hn'; exact hno ⟨j, u, hu, hh⟩
        obtain ⟨j, u, hu, hh⟩ := hex
        have hh' := MLThread.owns_holds hh
        exact ⟨1, by omega, .there (.read hx hr (hji hu hh') hu hh) (leads_of_holder hm hu hh')⟩
      | none =>
        exact absurd ⟨fun c hc' => (by rw [hc] at hc'; cases hc'), fun n hn => (by rw [hr] at hn; cases hn)⟩ this

/-- C170. At every moment of every execution a call that has not returned can go on or waits for another; following whom one
waits for after another, one comes within two calls to one that can go on. -/
theorem C170_no_deadlock (mode : Mode) (shards : Nat) (shard : T → Nat) (calls : List (MetricCall T)) (p : MLPool T)
    (h : MLSteps mode shards shard (MLPool.start calls) p) (i : Nat) (x : MLThread T) (hx : p.threads[i]? = some x) :
    MeterSettled p x ∨ ∃ n, n ≤ 2 ∧ MeterLeads mode shards shard p n i := by
  obtain ⟨sched, hm⟩ := (Metered.start shards shard calls).steps h
  cases hst : x.base.stuck p.owned p.borrowed with
  | false =>
    obtain ⟨n, hn, hl⟩ := hm.leads (mode := mode) hx hst
    exact .inr ⟨n, by omega, hl⟩
  | true =>
    have hfree : ∃ t, x = .free t := by
      cases x with
      | free t => exact ⟨t, rfl⟩
      | owning t c o => rw [show (MLThread.owning t c o).base = t from rfl, MetricThread.changes_stuck (hm.owning i t c o hx)] at hst; cases hst
      | sharing t n => rw [show (MLThread.sharing t n).base = t from rfl, MetricThread.reads_stuck (hm.sharing i t n hx)] at hst; cases hst
    obtain ⟨t, rfl⟩ := hfree
    change t.stuck p.owned p.borrowed = true at hst
    cases t with
    | returned c r => exact .inl (.inl ⟨c, r, rfl⟩)
    | calling c =>
      cases c with
      | snapshot =>
        simp only [MetricThread.stuck, Bool.not_eq_true'] at hst
        exact .inl (.inr ⟨hst, .inl rfl⟩)
      | drop =>
        simp only [MetricThread.stuck, Bool.or_eq_true, Bool.not_eq_true'] at hst
        cases ho : p.owned with
        | false => exact .inl (.inr ⟨ho, .inr rfl⟩)
        | true =>
          have hb : p.borrowed = true := by simpa [ho] using hst
          simp only [MLPool.borrowed, List.any_map, List.any_eq_true, Function.comp_apply] at hb
          obtain ⟨u, hu, hb⟩ := hb
          obtain ⟨j, hj⟩ := List.getElem?_of_mem hu
          have hns : u.base.stuck p.owned p.borrowed = false := by
            cases hb' : u.base with
            | copying n s => rfl
            | _ => rw [hb'] at hb; cases hb
          obtain ⟨n, hn, hl⟩ := hm.leads (mode := mode) hj hns
          have hij : i ≠ j := fun e => by subst e; rw [hx] at hj; cases hj; cases hb
          exact .inr ⟨n + 1, by omega, .there (.drop hx hij hj hb) hl⟩
      | _ => simp [MetricThread.stuck] at hst
    | _ => simp [MetricThread.stuck] at hst

theorem Spec.MeterLeads.someone {p : MLPool T} {n i : Nat} (h : MeterLeads mode shards shard p n i) :
    ∃ j, MeterMoves mode shards shard p j := by
  induction h with
  | here h => exact ⟨_, h⟩
  | there _ _ ih => exact ih

theorem MLStep.later {p p' : MLPool T} {q : MetricPool T} {i : Nat} (hm : Metered shards shard p q)
    (h : MLStep mode shards shard p i p') :
    (p'.threads = p.threads ∧ p'.owned = p.owned) ∨ OneOf (InvImage (· < ·) (MLThread.weight shards)) p'.threads p.threads := by
  have hbusy : ∀ {x : MLThread T} {t : MetricThread T} {t' : MetricThread T} {m : MetricMap T}, p.threads[i]? = some x → x.base = t → (∀ a b, t.stuck a b = false) →
      ((p.base m).stepAt mode shards shard i).threads[i]? = some t' → x.weight shards ≥ 2 * t.weight shards →
      OneOf (InvImage (· < ·) (MLThread.weight shards)) (p.after i t' ((p.base m).stepAt mode shards shard i)).threads p.threads := by
    intro x t t' m hx he hs ht' hw
    refine OneOf.set hx ?_
    have := MLPool.after_weight hx m (by rw [he]; exact hs _ _) ht'
    rw [he] at this
    show 2 * t'.weight shards + 1 < x.weight shards
    omega
  cases h with
  | @lock t c ht hc hf => exact .inr (OneOf.set ht (by show 2 * _ < 2 * _ + 1; omega))
  | draft => exact .inl ⟨rfl, rfl⟩
  | @commit t c o t' ht ht' =>
    exact .inr (hbusy ht rfl (MetricThread.changes_stuck (hm.owning i t c o ht)) ht' (Nat.le_refl _))
  | @share t n ht hn hf => exact .inr (OneOf.set ht (by show 2 * _ < 2 * _ + 1; omega))
  | @release t n t' ht ht' =>
    exact .inr (hbusy ht rfl (MetricThread.reads_stuck (hm.sharing i t n ht)) ht' (Nat.le_refl _))
  | @plain t t' ht hc hr ht' =>
    cases hst : t.stuck p.owned p.borrowed with
    | true =>
      have e := (mstep_stuck mode shards shard (base_at ht p.maps)).mpr hst
      rw [e, base_at ht] at ht'
      cases ht'
      refine .inl ⟨?_, ?_⟩
      · show p.threads.set i _ = _
        rw [show (MLThread.free t).base = t from rfl, set_same ht]
      · show ((p.base p.maps).stepAt mode shards shard i).owned = _
        rw [e]; rfl
    | false =>
      refine .inr (OneOf.set ht ?_)
      have := MLPool.after_weight ht p.maps hst ht'
      show 2 * t'.weight shards + 1 < 2 * t.weight shards + 1
      exact Nat.succ_lt_succ (Nat.mul_lt_mul_of_pos_left this (by omega))

private theorem weight_acc (shards : Nat) (x : MLThread T) : Acc (InvImage (· < ·) (MLThread.weight shards)) x :=
  (InvImage.wf (MLThread.weight shards) Nat.lt_wfRel.wf).apply x

/-- C170: from every situation all calls can return. -/
theorem C170_can_finish (mode : Mode) (shards : Nat) (shard : T → Nat) (calls : List (MetricCall T)) (p : MLPool T)
    (h : MLSteps mode shards shard (MLPool.start calls) p) :
    ∃ p', MLSteps mode shards shard p p' ∧ ∀ x ∈ p'.threads, MeterSettled p' x := by
  have main : ∀ l, Acc (OneOf (InvImage (· < ·) (MLThread.weight shards))) l → ∀ p : MLPool T, p.threads = l →
      MLSteps mode shards shard (MLPool.start calls) p → ∃ p', MLSteps mode shards shard p p' ∧ ∀ x ∈ p'.threads, MeterSettled p' x := by
    intro l hl
    induction hl with
    | intro l _ ih =>
      intro p hp h
      by_cases hne : ∀ x ∈ p.threads, MeterSettled p x
      · exact ⟨p, .refl, hne⟩
      · obtain ⟨x, hx⟩ := Classical.not_forall.mp hne
        obtain ⟨hxm, hx⟩ := Classical.not_imp.mp hx
        obtain ⟨i, hi⟩ := List.getElem?_of_mem hxm
        obtain ⟨n, -, hl⟩ := (C170_no_deadlock mode shards shard calls p h i x hi).resolve_left hx
        obtain ⟨j, p1, hs, hch⟩ := hl.someone
        obtain ⟨sched, hm⟩ := (Metered.start shards shard calls).steps h
        rcases hs.later hm with e | e
        · exact absurd (by rw [e.1]) hch
        · obtain ⟨p', h1, h2⟩ := ih _ (hp ▸ e) p1 rfl (.tail h hs)
          exact ⟨p', (MLSteps.tail .refl hs).trans h1, h2⟩
  exact main _ (OneOf.acc (weight_acc shards) _) p rfl h

/-- An infinite execution of these calls in which no thread that can go on is passed over for ever. -/
structure Spec.MeterRun (mode : Mode) (shards : Nat) (shard : T → Nat) (calls : List (MetricCall T)) (run : Nat → MLPool T) : Prop where
  start : run 0 = MLPool.start calls
  steps : ∀ k, run (k + 1) = run k ∨ ∃ i, MLStep mode shards shard (run k) i (run (k + 1))
  fair : ∀ (i k : Nat), ∃ k', k ≤ k' ∧ (¬ MeterMoves mode shards shard (run k') i ∨ (run (k' + 1)).threads[i]? ≠ (run k').threads[i]?)

/-- C170: if no call that can go on is passed over for ever, all calls return. -/
theorem C170_all_return (mode : Mode) (shards : Nat) (shard : T → Nat) (calls : List (MetricCall T)) (run : Nat → MLPool T)
    (h : MeterRun mode shards shard calls run) : ∃ N, ∀ k, N ≤ k → ∀ x ∈ (run k).threads, MeterSettled (run k) x := by
  have hreach : ∀ k, MLSteps mode shards shard (MLPool.start calls) (run k) := by
    intro k
    induction k with
    | zero => rw [h.start]; exact .refl
    | succ k ih =>
      rcases h.steps k with e | ⟨n, e⟩
      · rw [e]; exact ih
      · exact .tail ih e
  have hmet : ∀ k, ∃ q, Metered shards shard (run k) q := fun k => by
    obtain ⟨sched, hm⟩ := (Metered.start shards shard calls).steps (hreach k)
    exact ⟨_, hm⟩
  obtain ⟨N, hN⟩ := settles (r := InvImage (OneOf (InvImage (· < ·) (MLThread.weight shards))) Prod.fst)
    (fun k => ((run k).threads, (run k).owned)) (InvImage.accessible _ (OneOf.acc (weight_acc shards) _)) (by
    intro k
    rcases h.steps k with e | ⟨n, e⟩
    · left; show ((run (k + 1)).threads, (run (k + 1)).owned) = _; rw [e]
    · obtain ⟨q, hm⟩ := hmet k
      rcases e.later hm with ⟨e1, e2⟩ | e1
      · left; show ((run (k + 1)).threads, (run (k + 1)).owned) = _; rw [e1, e2]
      · exact .inr e1)
  refine ⟨N, fun k hk x hx => Classical.byContradiction fun hne => ?_⟩
  obtain ⟨i, hi⟩ := List.getElem?_of_mem hx
  obtain ⟨n, -, hl⟩ := (C170_no_deadlock mode shards shard calls _ (hreach k) i x hi).resolve_left hne
  obtain ⟨j, hj⟩ := hl.someone
  obtain ⟨k', hk', h2⟩ := h.fair j N
  have hsame : ((run k').threads, (run k').owned) = ((run k).threads, (run k).owned) := (hN k' hk').trans (hN k hk).symm
  have hth : (run k').threads = (run k).threads := congrArg Prod.fst hsame
  have how : (run k').owned = (run k).owned := congrArg Prod.snd hsame
  rcases h2 with h2 | h2
  · obtain ⟨q, hm⟩ := hmet k
    obtain ⟨q', hm'⟩ := hmet k'
    refine h2 ((meterMoves_iff hm').mpr ?_)
    rw [hth, how, show (run k').borrowed = (run k).borrowed by simp only [MLPool.borrowed, hth]]
    exact (meterMoves_iff hm).mp hj
  · exact h2 (by
      rw [show (run (k' + 1)).threads = _ from congrArg Prod.fst (hN (k' + 1) (by omega)),
        show (run k').threads = _ from congrArg Prod.fst (hN k' hk')])

/-! ## Concrete cases -/

/-- Beside C169: an increment in the middle of which the new counter is 0, which no reader ever sees, while a second call
waits. -/
example : ∃ p, MLSteps .debug 1 (fun _ : Nat => 0) (MLPool.start [.increment 5, .readCounter 5]) p ∧
    p.maps.counters 5 = some 0 ∧ p.threads.map MLThread.base = [.holding (.increment 5), .holding (.readCounter 5)] ∧
    .owning (.holding (.increment 5)) (.counter 5) none ∈ p.threads := by
  refine ⟨_, .tail (i := 0) (.tail (i := 0) (C169_all_possible .debug 1 (fun _ => 0) [.increment 5, .readCounter 5] [0, 1])
    (.lock (t := .holding (.increment 5)) (c := .counter 5) rfl rfl ?_))
    (.draft (t := .holding (.increment 5)) (c := .counter 5) (o := none) (some 0) rfl), rfl, rfl, .head _⟩
  intro j u hu
  match j with
  | 0 => cases hu; simp [MLThread.holds]
  | 1 => cases hu; simp [MLThread.holds]
  | j + 2 => cases hu

/-- Beside C170_no_deadlock: the second call of the case above waits for the first, which can go on. -/
example : ∃ p, MLSteps .debug 1 (fun _ : Nat => 0) (MLPool.start [.increment 5, .readCounter 5]) p ∧
    MeterWaits 1 (fun _ : Nat => 0) p 1 0 := by
  refine ⟨_, .tail (i := 0) (C169_all_possible .debug 1 (fun _ => 0) [.increment 5, .readCounter 5] [0, 1])
    (.lock (t := .holding (.increment 5)) (c := .counter 5) rfl rfl ?_), .read (n := 0) rfl rfl (by decide) rfl rfl⟩
  intro j u hu
  match j with
  | 0 => cases hu; simp [MLThread.holds]
  | 1 => cases hu; simp [MLThread.holds]
  | j + 2 => cases hu

/-- A writer asked once whether the instance exists. -/
private def askedOnce : Nat → MLPool Nat
  | 0 => MLPool.start [.valid]
  | _ + 1 => { MLPool.start [.valid] with threads := [.free (.returned .valid (.bool true))] }

/-- Beside C170_all_return: a fair execution. -/
example : MeterRun .debug 1 (fun _ => 0) [.valid] askedOnce := by
  refine ⟨rfl, ?_, ?_⟩
  · intro k
    match k with
    | 0 =>
      exact .inr ⟨0, .plain (p := askedOnce 0) (i := 0) (t := .calling .valid) (t' := .returned .valid (.bool true)) rfl rfl rfl rfl⟩
    | k + 1 => exact .inl rfl
  · intro i k
    refine ⟨k + 1, by omega, .inl ?_⟩
    rintro ⟨p', hs, hne⟩
    have hone : ∀ t, (askedOnce (k + 1)).threads[i]? = some t → i = 0 ∧ t = .free (.returned .valid (.bool true)) := by
      intro t ht
      match i with
      | 0 => cases ht; exact ⟨rfl, rfl⟩
      | i + 1 => cases ht
    cases hs with
    | lock ht hw _ => cases (hone _ ht).2; cases hw
    | draft => exact hne rfl
    | commit ht => cases (hone _ ht).2
    | share ht hw _ => cases (hone _ ht).2; cases hw
    | release ht => cases (hone _ ht).2
    | plain ht _ _ ht' =>
      obtain ⟨rfl, e⟩ := hone _ ht
      cases e
      cases ht'
      exact hne rfl

end Hop
