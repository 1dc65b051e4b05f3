import Verif.Spec.Metrics
import Verif.Lemmas.Lists

/-! # C40: metrics -/

namespace Hop

open Spec

variable {T : Type} [DecidableEq T]

theorem after_append (mode : Mode) (h : List (MetricOp T)) (o : MetricOp T) :
    MetricWorld.after mode (h ++ [o]) = (MetricWorld.after mode h).apply mode o := by
  simp [MetricWorld.after]

theorem counterShows_getD (mode : Mode) (n : Nat) :
    (counterShows mode n).getD 0 = match mode with | .debug => min n (2 ^ 64 - 1) | .release => n % 2 ^ 64 := by
  unfold counterShows
  cases mode <;> by_cases h : n = 0 <;> simp [h]

theorem increments_snoc (t : T) (h : List (MetricOp T)) (o : MetricOp T) :
    increments t (h ++ [o]) = increments t h + (match o with | .increment t' => if t' = t then 1 else 0 | _ => 0) := by
  unfold increments
  rw [List.countP_append]
  cases o <;> simp [List.countP_cons]

theorem gaugeWrites_snoc (t : T) (h : List (MetricOp T)) (o : MetricOp T) :
    gaugeWrites t (h ++ [o]) = gaugeWrites t h ++ (match o with | .gauge t' v => if t' = t then [v] else [] | _ => []) := by
  unfold gaugeWrites
  rw [List.filterMap_append]
  cases o with
  | gauge t' v => by_cases e : t' = t <;> simp [e]
  | _ => simp

omit [DecidableEq T] in
theorem dropped_snoc (h : List (MetricOp T)) (o : MetricOp T) :
    dropped (h ++ [o]) = (dropped h || (match o with | .drop => true | _ => false)) := by
  unfold dropped
  rw [List.any_append]
  cases o <;> simp

/-- One more increment. -/
theorem counterShows_succ (mode : Mode) (n : Nat) :
    (match addU mode 64 ((counterShows mode n).getD 0) 1 with
      | none => some ((counterShows mode n).getD 0)
      | some k => some k) = counterShows mode (n + 1) := by
  rw [counterShows_getD]
  cases mode with
  | debug =>
    simp only [counterShows, addU, Nat.add_one_ne_zero, if_false]
    by_cases h : n + 1 < 2 ^ 64
    · rw [Nat.min_eq_left (by omega), if_pos h, Nat.min_eq_left (by omega)]
    · rw [Nat.min_eq_right (by omega), if_neg (by omega), Nat.min_eq_right (by omega)]
  | release =>
    simp only [counterShows, addU, Nat.add_one_ne_zero, if_false]
    by_cases h : n % 2 ^ 64 + 1 < 2 ^ 64
    · rw [if_pos h]; simp only [Option.some.injEq]; omega
    · rw [if_neg h]; simp only [Nat.mod_add_mod]

/-- The state of the instance after a history. -/
theorem metrics_live (mode : Mode) (h : List (MetricOp T)) :
    (MetricWorld.after mode h).cell.live =
      if dropped h then none
      else some { counters := fun t => counterShows mode (increments t h), gauges := fun t => (gaugeWrites t h).getLast? } := by
  induction h using snoc_ind with
  | h0 => simp [MetricWorld.after, MetricCell.new, dropped, increments, gaugeWrites, counterShows]
  | h1 h o ih =>
    rw [after_append, dropped_snoc]
    cases hd : dropped h with
    | true =>
      rw [hd, if_pos rfl] at ih
      rw [Bool.true_or, if_pos rfl]
      cases o with
      | increment t => simp [MetricWorld.apply, MetricCell.increment, ih]
      | gauge t v => simp [MetricWorld.apply, MetricCell.writeGauge, ih]
      | snapshot => simp [MetricWorld.apply, MetricCell.snapshot, ih]
      | drop => simp [MetricWorld.apply, MetricCell.drop]
      | scribble i t v => simp [MetricWorld.apply, ih]
      | scrawl i t v => simp [MetricWorld.apply, ih]
    | false =>
      rw [hd] at ih
      simp only [Bool.false_eq_true, if_false] at ih
      simp only [increments_snoc, gaugeWrites_snoc, Bool.false_or]
      cases o with
      | increment t =>
        simp only [MetricWorld.apply, MetricCell.increment, ih, Bool.false_eq_true, if_false, List.append_nil]
        have hs := counterShows_succ mode (increments t h)
        split
        · rename_i he
          rw [he] at hs
          simp only [Option.some.injEq, MetricMap.mk.injEq, and_true]
          funext t'
          by_cases e : t' = t
          · subst e; simpa using hs
          · simp [e, Ne.symm e]
        · rename_i k he
          rw [he] at hs
          simp only [Option.some.injEq, MetricMap.mk.injEq, and_true]
          funext t'
          by_cases e : t' = t
          · subst e; simpa using hs
          · simp [e, Ne.symm e]
      | gauge t v =>
        simp only [MetricWorld.apply, MetricCell.writeGauge, ih, Bool.false_eq_true, if_false, Nat.add_zero,
          Option.some.injEq, MetricMap.mk.injEq, true_and]
        funext t'
        by_cases e : t' = t
        · subst e; simp
        · simp [e, Ne.symm e]
      | snapshot => simp [MetricWorld.apply, MetricCell.snapshot, ih]
      | drop => simp [MetricWorld.apply, MetricCell.drop]
      | scribble i t v => simp [MetricWorld.apply, ih]
      | scrawl i t v => simp [MetricWorld.apply, ih]

omit [DecidableEq T] in
theorem snapshots_snoc (h : List (MetricOp T)) (o : MetricOp T) :
    snapshots (h ++ [o]) = snapshots h + (match o with | .snapshot => if dropped h then 0 else 1 | _ => 0) := by
  induction h with
  | nil => cases o <;> simp [snapshots, dropped]
  | cons a h ih =>
    cases a <;> simp only [List.cons_append, snapshots, ih] <;> cases o <;> simp [dropped] <;> omega

theorem snaps_length (mode : Mode) (h : List (MetricOp T)) :
    (MetricWorld.after mode h).snaps.length = snapshots h := by
  induction h using snoc_ind with
  | h0 => rfl
  | h1 h o ih =>
    have hl := metrics_live mode h
    rw [after_append, snapshots_snoc]
    cases o with
    | snapshot =>
      cases hd : dropped h <;> rw [hd] at hl <;> simp at hl <;>
        simp [MetricWorld.apply, MetricCell.snapshot, hl, ih]
    | _ => simp [MetricWorld.apply, ih]

/-- **C40.** After any history of writes, snapshots, the drop of the instance, and writes into the
snapshots' own maps:
* while the instance exists, a counter shows the number of its increments (nothing if there were none;
  past 2^64 - 1 it stays there in debug builds and wraps in release builds), a gauge shows the last value
  written to it (nothing if there was none), readers and writers are valid, gauge writes succeed, and
  increments succeed except for the overflow panic of a debug build;
* once it is dropped, readers show nothing, and writers report failure. -/
theorem C40_metrics (mode : Mode) (h : List (MetricOp T)) (t : T) (v : UInt64) :
    let c := (MetricWorld.after mode h).cell
    (dropped h = false →
      c.readCounter t = counterShows mode (increments t h) ∧ c.readGauge t = (gaugeWrites t h).getLast? ∧
      c.valid = true ∧ (c.writeGauge t v).1 = true ∧
      (c.increment mode t).1 = (if mode = .debug ∧ 2 ^ 64 - 1 ≤ increments t h then none else some true)) ∧
    (dropped h = true →
      c.readCounter t = none ∧ c.readGauge t = none ∧ c.valid = false ∧ (c.writeGauge t v).1 = false ∧
      (c.increment mode t).1 = some false) := by
  have hl := metrics_live mode h
  constructor
  · intro hd
    rw [hd] at hl
    simp only [Bool.false_eq_true, if_false] at hl
    refine ⟨by simp [MetricCell.readCounter, hl], by simp [MetricCell.readGauge, hl], by simp [MetricCell.valid, hl],
      by simp [MetricCell.writeGauge, hl], ?_⟩
    simp only [MetricCell.increment, hl, counterShows_getD]
    cases mode with
    | debug =>
      simp only [addU, true_and]
      by_cases hi : 2 ^ 64 - 1 ≤ increments t h
      · rw [Nat.min_eq_right hi, if_neg (by omega), if_pos hi]
      · rw [Nat.min_eq_left (by omega), if_pos (by omega), if_neg hi]
    | release =>
      simp only [addU]
      split <;> simp_all
      split at * <;> simp_all
  · intro hd
    rw [hd, if_pos rfl] at hl
    exact ⟨by simp [MetricCell.readCounter, hl], by simp [MetricCell.readGauge, hl], by simp [MetricCell.valid, hl],
      by simp [MetricCell.writeGauge, hl], by simp [MetricCell.increment, hl]⟩

/-- **C40, snapshots.** A snapshot shows for ever what the instance showed when it was taken, whatever is
done to the instance or to other snapshots, except where its own maps are written to: there it shows what was
written last. -/
theorem C40_snapshot (mode : Mode) (pre post : List (MetricOp T)) (hd : dropped pre = false) :
    ∃ s, (MetricWorld.after mode (pre ++ .snapshot :: post)).snaps[snapshots pre]? = some s ∧
      ∀ t,
        s.counter t =
          (match (scribbles (snapshots pre) t post).getLast? with
            | some v => some v.toNat
            | none => counterShows mode (increments t pre)) ∧
        s.gauge t =
          (match (scrawls (snapshots pre) t post).getLast? with
            | some v => some v
            | none => (gaugeWrites t pre).getLast?) := by
  have hl := metrics_live mode pre
  rw [hd] at hl
  simp only [Bool.false_eq_true, if_false] at hl
  have hlen := snaps_length mode pre
  induction post using snoc_ind with
  | h0 =>
    refine ⟨⟨fun t => counterShows mode (increments t pre), fun t => (gaugeWrites t pre).getLast?⟩, ?_,
      fun t => ⟨rfl, rfl⟩⟩
    rw [after_append]
    simp [MetricWorld.apply, MetricCell.snapshot, hl, ← hlen]
  | h1 post o ih =>
    rw [show pre ++ MetricOp.snapshot :: (post ++ [o]) = (pre ++ .snapshot :: post) ++ [o] by simp, after_append]
    obtain ⟨s, hs, e⟩ := ih
    cases o with
    | snapshot =>
      refine ⟨s, ?_, fun t => ?_⟩
      · simp only [MetricWorld.apply]
        split
        · exact hs
        · rw [List.getElem?_append_left (List.getElem?_eq_some_iff.mp hs).1]; exact hs
      · simpa [scribbles, scrawls] using e t
    | scribble i t v =>
      simp only [MetricWorld.apply]
      rw [List.getElem?_modify, hs]
      by_cases hi : i = snapshots pre
      · refine ⟨s.insertCounter t v, by simp [hi], fun u => ⟨?_, ?_⟩⟩
        · by_cases hu : t = u
          · subst hu; simp [scribbles, hi, MetricMap.counter, MetricMap.insertCounter]
          · have := (e u).1
            simp only [MetricMap.counter] at this
            simpa [scribbles, hi, hu, MetricMap.counter, MetricMap.insertCounter, Ne.symm hu] using this
        · have := (e u).2
          simpa [scrawls, MetricMap.gauge, MetricMap.insertCounter] using this
      · refine ⟨s, by simp [hi], fun u => ?_⟩
        simpa [scribbles, scrawls, hi] using e u
    | scrawl i t v =>
      simp only [MetricWorld.apply]
      rw [List.getElem?_modify, hs]
      by_cases hi : i = snapshots pre
      · refine ⟨s.insertGauge t v, by simp [hi], fun u => ⟨?_, ?_⟩⟩
        · have := (e u).1
          simpa [scribbles, MetricMap.counter, MetricMap.insertGauge] using this
        · by_cases hu : t = u
          · subst hu; simp [scrawls, hi, MetricMap.gauge, MetricMap.insertGauge]
          · have := (e u).2
            simp only [MetricMap.gauge] at this
            simpa [scrawls, hi, hu, MetricMap.gauge, MetricMap.insertGauge, Ne.symm hu] using this
      · refine ⟨s, by simp [hi], fun u => ?_⟩
        simpa [scribbles, scrawls, hi] using e u
    | increment t => exact ⟨s, hs, fun u => by simpa [scribbles, scrawls] using e u⟩
    | gauge t v => exact ⟨s, hs, fun u => by simpa [scribbles, scrawls] using e u⟩
    | drop => exact ⟨s, hs, fun u => by simpa [scribbles, scrawls] using e u⟩

/-- Two increments, a gauge written twice, a snapshot in between, then writes into it and the drop. -/
example :
    let h : List (MetricOp Nat) := [.increment 1, .gauge 7 5, .snapshot, .increment 1, .gauge 7 6]
    (MetricWorld.after .debug h).cell.readCounter 1 = some 2 ∧ (MetricWorld.after .debug h).cell.readGauge 7 = some 6 ∧
      (MetricWorld.after .debug h).cell.readCounter 7 = none := by
  intro h
  have a := (C40_metrics .debug h 1 0).1 rfl
  have b := (C40_metrics .debug h 7 0).1 rfl
  rw [a.1, b.2.1, b.1]
  decide +kernel

example :
    ∃ s, (MetricWorld.after .debug [.increment (1 : Nat), .snapshot, .increment 1, .drop]).snaps[0]? = some s ∧
      s.counter 1 = some 1 := by
  obtain ⟨s, h, e⟩ := C40_snapshot .debug [.increment (1 : Nat)] [.increment 1, .drop] rfl
  exact ⟨s, h, (e 1).1⟩

/-- Somebody writes into the snapshot: it shows that, and the instance does not. -/
example :
    ∃ s, (MetricWorld.after .debug [.increment (1 : Nat), .snapshot, .scribble 0 1 40, .scrawl 0 2 8]).snaps[0]? = some s ∧
      s.counter 1 = some 40 ∧ s.gauge 2 = some 8 ∧ s.counter 2 = none := by
  obtain ⟨s, h, e⟩ := C40_snapshot .debug [.increment (1 : Nat)] [.scribble 0 1 40, .scrawl 0 2 8] rfl
  exact ⟨s, h, (e 1).1, (e 2).2, (e 2).1⟩

end Hop
