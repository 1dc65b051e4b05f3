import Verif.Spec.Timer
import Verif.Lemmas.Lists

/-! # C41: the timer -/

namespace Hop

open Spec

theorem parse_sane {ts : Timespec} (h : Timespec.Sane ts) : parseTimespec ts = some (Timespec.ns ts) := by
  obtain ⟨a, b, c⟩ := h
  have hs : ts.sec.toInt < 2 ^ 63 := Int64.toInt_lt ts.sec
  unfold parseTimespec Timespec.ns durationNew nsPerSec
  rw [if_pos a, if_pos ⟨b, by omega⟩, if_pos (by omega)]

theorem sinceReset_snoc (h : List TimerOp) (o : TimerOp) :
    sinceReset (h ++ [o]) = if isReset o then [] else sinceReset h ++ [o] := by
  induction h with
  | nil => cases o <;> simp [sinceReset, isReset]
  | cons a h ih =>
    rw [List.cons_append, sinceReset, sinceReset, List.any_append, ih]
    cases ho : isReset o <;> cases hr : h.any isReset <;> cases ha : isReset a <;> simp [ho]

theorem firstStop_snoc (h : List TimerOp) (o : TimerOp) :
    firstStop (h ++ [o]) = match firstStop h with
      | some c => some c
      | none => match o with | .stop c => some c | _ => none := by
  induction h with
  | nil => cases o <;> simp [firstStop]
  | cons a h ih => cases a <;> simp [firstStop, ih]

theorem firstStart_snoc (h : List TimerOp) (o : TimerOp) :
    firstStart (h ++ [o]) = match firstStart h with
      | some (c, r) => some (c, r ++ [o])
      | none => match o with | .start c => some (c, []) | _ => none := by
  induction h with
  | nil => cases o <;> simp [firstStart]
  | cons a h ih => cases a <;> simp [firstStart, ih]

theorem readings_snoc (h : List TimerOp) (o : TimerOp) :
    readings (h ++ [o]) = readings h ++ (match o with | .start c => [c] | .stop c => [c] | .reset => []) := by
  unfold readings
  rw [List.filterMap_append]
  cases o <;> simp

theorem Clocked.init {h : List TimerOp} {o : TimerOp} (hc : Clocked (h ++ [o])) : Clocked h := by
  obtain ⟨a, b⟩ := hc
  rw [readings_snoc] at a b
  exact ⟨fun c hm => a c (by simp [hm]), (List.pairwise_append.mp b).1⟩

theorem firstStart_mem {h : List TimerOp} {c : Timespec} {r : List TimerOp} (e : firstStart h = some (c, r)) :
    ∃ p, h = p ++ .start c :: r := by
  induction h with
  | nil => simp [firstStart] at e
  | cons a h ih =>
    cases a with
    | start d => simp [firstStart] at e; exact ⟨[], by simp [e.1, e.2]⟩
    | stop d => obtain ⟨p, hp⟩ := ih (by simpa [firstStart] using e); exact ⟨_ :: p, by rw [hp]; rfl⟩
    | reset => obtain ⟨p, hp⟩ := ih (by simpa [firstStart] using e); exact ⟨_ :: p, by rw [hp]; rfl⟩

theorem firstStop_mem {h : List TimerOp} {c : Timespec} (e : firstStop h = some c) : .stop c ∈ h := by
  induction h with
  | nil => simp [firstStop] at e
  | cons a h ih =>
    cases a with
    | stop d => simp [firstStop] at e; simp [e]
    | start d => simp [ih (by simpa [firstStop] using e)]
    | reset => simp [ih (by simpa [firstStop] using e)]

theorem sinceReset_suffix (h : List TimerOp) : ∃ p, h = p ++ sinceReset h := by
  induction h with
  | nil => exact ⟨[], rfl⟩
  | cons a h ih =>
    obtain ⟨p, hp⟩ := ih
    rw [sinceReset]
    split
    · exact ⟨a :: p, by rw [List.cons_append, ← hp]⟩
    · split
      · exact ⟨[a], rfl⟩
      · exact ⟨[], rfl⟩

/-- A start is not later than the stop after it. -/
theorem start_le_stop {h : List TimerOp} (hc : Clocked h) {a b : Timespec} (ha : startedAt h = some a)
    (hb : stoppedAt h = some b) : Timespec.ns a ≤ Timespec.ns b := by
  unfold startedAt at ha
  unfold stoppedAt at hb
  obtain ⟨p, hp⟩ := sinceReset_suffix h
  cases hf : firstStart (sinceReset h) with
  | none => rw [hf] at ha; simp at ha
  | some x =>
    obtain ⟨c, r⟩ := x
    rw [hf] at ha hb
    simp at ha hb
    subst ha
    obtain ⟨q, hq⟩ := firstStart_mem hf
    have hm := firstStop_mem hb
    have hh : h = (p ++ q) ++ (.start c :: r) := by rw [hp, hq, List.append_assoc]
    have hw := hc.2
    rw [hh] at hw
    unfold readings at hw
    rw [List.filterMap_append] at hw
    have hw := (List.pairwise_append.mp hw).2.1
    simp only [List.filterMap_cons] at hw
    exact (List.pairwise_cons.mp hw).1 b (List.mem_filterMap.mpr ⟨_, hm, rfl⟩)

/-- What is stored in the timer after a history. -/
theorem timer_state {h : List TimerOp} (hc : Clocked h) :
    (timerAfter h).start = (startedAt h).map Timespec.ns ∧ (timerAfter h).stop = (stoppedAt h).map Timespec.ns := by
  induction h using snoc_ind with
  | h0 => exact ⟨rfl, rfl⟩
  | h1 h o ih =>
    obtain ⟨ia, ib⟩ := ih (Clocked.init hc)
    have he : timerAfter (h ++ [o]) = pressed (timerAfter h) o := by simp [timerAfter]
    have hr : ∀ c, (o = .start c ∨ o = .stop c) → parseTimespec c = some (Timespec.ns c) := by
      intro c hc'
      apply parse_sane
      apply hc.1
      rw [readings_snoc]
      cases hc' with
      | inl e => simp [e]
      | inr e => simp [e]
    rw [he]
    unfold startedAt stoppedAt at *
    rw [sinceReset_snoc]
    cases o with
    | reset => exact ⟨rfl, rfl⟩
    | start c =>
      simp only [isReset, Bool.false_eq_true, if_false, firstStart_snoc, pressed, Timer.doStart]
      cases hf : firstStart (sinceReset h) with
      | none =>
        rw [hf] at ia ib
        simp at ia ib
        simp [ia, ib, hr c (.inl rfl), firstStop]
      | some x =>
        obtain ⟨d, r⟩ := x
        rw [hf] at ia ib
        simp at ia ib
        simp only [ia, Option.isSome_some, if_true, Option.map_some, Option.bind_some, firstStop_snoc, true_and, ib]
        cases firstStop r <;> rfl
    | stop c =>
      simp only [isReset, Bool.false_eq_true, if_false, firstStart_snoc, pressed, Timer.doStop]
      cases hf : firstStart (sinceReset h) with
      | none =>
        rw [hf] at ia ib
        simp at ia ib
        simp [ia, ib]
      | some x =>
        obtain ⟨d, r⟩ := x
        rw [hf] at ia ib
        simp at ia ib
        cases hs : firstStop r with
        | none =>
          rw [hs] at ib
          simp at ib
          simp [ia, ib, hr c (.inr rfl), firstStop_snoc, hs]
        | some e =>
          rw [hs] at ib
          simp at ib
          simp [ia, ib, firstStop_snoc, hs]

/-- **C41.** After any history of presses, with a clock that does not run backwards:
* `start` succeeds exactly if the timer has not been started since the last reset;
* `stop` answers with a time exactly if the timer is running, namely the time since the start;
* `duration` is there exactly if the timer was stopped, and is the time from start to stop;
* `is_running` holds exactly if it was started and not stopped;
and none of these panics. The clock reading `now` of the next press is any sane one that is not earlier
than those before. -/
theorem C41_timer (h : List TimerOp) (now : Timespec) (hc : Clocked (h ++ [.start now])) :
    let t := timerAfter h
    (t.doStart now).1 = some (startedAt h).isNone ∧
    (t.doStop now).1 = some (match startedAt h, stoppedAt h with
      | some a, none => some (Timespec.ns now - Timespec.ns a)
      | _, _ => none) ∧
    t.duration = some (match startedAt h, stoppedAt h with
      | some a, some b => some (Timespec.ns b - Timespec.ns a)
      | _, _ => none) ∧
    t.isRunning = ((startedAt h).isSome && (stoppedAt h).isNone) ∧
    t.reset = .new := by
  intro t
  obtain ⟨ha, hb⟩ := timer_state (Clocked.init hc)
  have hn : parseTimespec now = some (Timespec.ns now) := by
    apply parse_sane
    apply hc.1
    rw [readings_snoc]
    simp
  have hle : ∀ a, startedAt h = some a → Timespec.ns a ≤ Timespec.ns now := by
    intro a e
    have hw := hc.2
    rw [readings_snoc] at hw
    have hm : a ∈ readings h := by
      unfold startedAt at e
      obtain ⟨p, hp⟩ := sinceReset_suffix h
      cases hf : firstStart (sinceReset h) with
      | none => rw [hf] at e; simp at e
      | some x =>
        obtain ⟨c, r⟩ := x
        rw [hf] at e
        simp at e
        subst e
        obtain ⟨q, hq⟩ := firstStart_mem hf
        rw [hp, hq]
        unfold readings
        simp
    exact (List.pairwise_append.mp hw).2.2 a hm now (by simp)
  have hsb := @start_le_stop h (Clocked.init hc)
  have ha' : t.start = _ := ha
  have hb' : t.stop = _ := hb
  refine ⟨?_, ?_, ?_, ?_, rfl⟩
  · unfold Timer.doStart
    rw [ha']
    cases hs : startedAt h <;> simp [hn]
  · unfold Timer.doStop Timer.duration
    rw [ha', hb']
    cases hs : startedAt h with
    | none => simp
    | some a =>
      cases hp : stoppedAt h with
      | some b => simp
      | none => simp [hn, hle a hs]
  · unfold Timer.duration
    rw [ha', hb']
    cases hs : startedAt h with
    | none => cases stoppedAt h <;> simp
    | some a =>
      cases hp : stoppedAt h with
      | none => simp
      | some b => simp [hsb hs hp]
  · unfold Timer.isRunning
    rw [ha', hb']
    cases startedAt h <;> cases stoppedAt h <;> rfl

/-- Started at 1.5 s, again at 2 s (without effect), stopped at 3 s: ran for 1.5 s. -/
example : (timerAfter [.start ⟨1, 500000000⟩, .start ⟨2, 0⟩, .stop ⟨3, 0⟩]).duration = some (some 1500000000) := by
  have h := (C41_timer [.start ⟨1, 500000000⟩, .start ⟨2, 0⟩, .stop ⟨3, 0⟩] ⟨3, 0⟩ (by
    unfold Clocked Timespec.Sane; decide +kernel)).2.2.1
  exact h.trans (by decide +kernel)

/-- Why a sane clock is needed: negative seconds are read as zero without touching the nanoseconds, so a
clock passing from -0.1 s to 0 s appears to run backwards, and stopping the timer panics. -/
theorem C41_negative_seconds :
    ((timerAfter [.start ⟨-1, 900000000⟩]).doStop ⟨0, 0⟩).1 = none := by decide +kernel

/-- `parse_timespec` never panics, and is exact on the readings a kernel gives. -/
theorem C41_parse_timespec (ts : Timespec) :
    (∃ d, parseTimespec ts = some d) ∧ (Timespec.Sane ts → parseTimespec ts = some (Timespec.ns ts)) := by
  refine ⟨?_, parse_sane⟩
  have hs : ts.sec.toInt < 2 ^ 63 := Int64.toInt_lt ts.sec
  unfold parseTimespec durationNew nsPerSec
  dsimp only
  repeat' split
  all_goals first | exact ⟨_, rfl⟩ | omega

example : Timespec.Sane ⟨7, 1⟩ := by unfold Timespec.Sane; decide +kernel

end Hop
