import Verif.Spec.Arguments
import Verif.Spec.Request
import Verif.Lemmas.Builder
import Verif.Props.Store

/-! # C113, C114: ranges of arguments -/

namespace Hop

open Spec

variable {r : Request} {c : CommandId} {kt : Option KeyType} {args : List Bytes}

/-- What a loop sees from index `s` on, when it is to stop at index `e`. -/
theorem collected_from (m : Mode) (h : Views r c kt args) (s e : Nat) (hs : s + 1 < 2 ^ 64) (hn : args.length + 1 < 2 ^ 64) :
    Collected m ⟨s, e, r⟩ (if s ≤ e then (args.drop s).take (e - s) else args.drop s) true := by
  have hadd : ∀ i, i + 1 < 2 ^ 64 → addU m 64 i 1 = some (i + 1) := fun i hi => by simp only [addU, if_pos hi]
  obtain ⟨n, hk⟩ : ∃ n, args.length - s = n := ⟨_, rfl⟩
  induction n generalizing s with
  | zero =>
    have hd : args.drop s = [] := List.drop_eq_nil_of_le (by omega)
    rw [hd]
    simp only [List.take_nil, ite_self]
    by_cases he : s = e
    · exact .done (it' := ⟨s, e, r⟩) (by simp only [ArgIter.next, if_pos he])
    · refine .done (it' := ⟨s + 1, e, r⟩) ?_
      simp only [ArgIter.next, if_neg he, hadd s hs, h.arg]
      rw [List.getElem?_eq_none (by omega)]
  | succ n ih =>
    have hlt : s < args.length := by omega
    by_cases he : s = e
    · subst he
      simp only [Nat.le_refl, if_true, Nat.sub_self, List.take_zero]
      exact .done (it' := ⟨s, s, r⟩) (by simp only [ArgIter.next, if_true])
    · have step : (ArgIter.mk s e r).next m = some (some args[s], ⟨s + 1, e, r⟩) := by
        simp only [ArgIter.next, if_neg he, hadd s hs, h.arg]
        rw [List.getElem?_eq_getElem hlt]
      have rest := ih (s + 1) (by omega) (by omega)
      rw [List.drop_eq_getElem_cons hlt]
      by_cases hle : s ≤ e
      · have h1 : s + 1 ≤ e := by omega
        rw [if_pos hle]
        rw [if_pos h1] at rest
        have : e - s = (e - (s + 1)) + 1 := by omega
        rw [this, List.take_succ_cons]
        exact .item step rest
      · rw [if_neg hle]
        rw [if_neg (by omega)] at rest
        exact .item step rest

/-- The items at consecutive indices. -/
theorem filter_zipIdx (p : Nat → Bool) (s e : Nat) (hp : ∀ i, p i = (decide (s ≤ i) && decide (i < e))) (l : List Bytes) (k : Nat) :
    ((l.zipIdx k).filter fun x => p x.2).map Prod.fst = (l.take (e - k)).drop (s - k) := by
  induction l generalizing k with
  | nil => simp
  | cons a l ih =>
    rw [List.zipIdx_cons, List.filter_cons]
    by_cases hlo : s ≤ k
    · by_cases hhi : k < e
      · have hpk : p k = true := by rw [hp]; simp [hlo, hhi]
        have h1 : e - k = (e - (k + 1)) + 1 := by omega
        have h2 : s - k = 0 := by omega
        have h3 : s - (k + 1) = 0 := by omega
        simp only [hpk, if_true, List.map_cons, ih (k + 1), h1, List.take_succ_cons, h2, h3, List.drop_zero]
      · have hpk : p k = false := by rw [hp]; simp [hhi]
        have h1 : e - k = 0 := by omega
        have h2 : e - (k + 1) = 0 := by omega
        have := ih (k + 1)
        rw [h2] at this
        simp only [hpk, Bool.false_eq_true, if_false, this, h1, List.take_zero, List.drop_nil]
    · have hpk : p k = false := by rw [hp]; simp [hlo]
      have h1 : s - k = (s - (k + 1)) + 1 := by omega
      have := ih (k + 1)
      by_cases hhi : k < e
      · have h2 : e - k = (e - (k + 1)) + 1 := by omega
        simp only [hpk, Bool.false_eq_true, if_false, this, h1, h2, List.take_succ_cons, List.drop_succ_cons]
      · have h2 : e - k = 0 := by omega
        have h3 : e - (k + 1) = 0 := by omega
        rw [h3] at this
        simp only [hpk, Bool.false_eq_true, if_false, this, h2, List.take_zero, List.drop_nil]

/-- The items in a range, by its first index and the first index after it. -/
theorem inRange_eq {lo hi : Bound} {s e : Nat} (hs : Starts lo s) (he : Stops args.length hi e) :
    itemsIn lo hi args = (args.take e).drop s := by
  have bound : ∀ x ∈ args.zipIdx, x.2 < args.length := fun x hx => by
    have := List.mem_zipIdx hx
    omega
  have hp : ∀ x ∈ args.zipIdx, within lo hi x.2 = (decide (s ≤ x.2) && decide (x.2 < e)) := fun x hx => by
    have hb := bound x hx
    cases lo <;> cases hi <;> simp only [Starts, Stops] at hs he <;> subst hs he <;>
      simp only [within, Nat.succ_le_iff, Nat.lt_succ_iff, Nat.zero_le, decide_true, Bool.true_and, hb, Bool.and_true]
  rw [itemsIn, List.filter_congr hp]
  have := filter_zipIdx (fun i => decide (s ≤ i) && decide (i < e)) s e (fun _ => rfl) args 0
  simpa using this

/-- `args` for a range that can be computed. -/
theorem args_range (m : Mode) (h : Views r c kt args) (hne : args ≠ []) {lo hi : Bound} {s e : Nat} (hs : Starts lo s)
    (he : Stops args.length hi e) (hs' : s < 2 ^ 64) (he' : e < 2 ^ 64) : r.args m lo hi = some (some ⟨s, e, r⟩) := by
  have hc : r.argCount ≠ 0 := by
    rw [h.count]
    simpa using hne
  have h1 : lo.start m = some s := by
    cases lo <;> simp only [Starts] at hs <;> subst hs
    · rfl
    · simp only [Bound.start, addU, if_pos hs']
    · rfl
  have h2 : hi.stop m r.argCount = some e := by
    cases hi <;> simp only [Stops] at he <;> subst he
    · simp only [Bound.stop, addU, if_pos he']
    · rfl
    · rw [h.count]; rfl
  simp only [Request.args, if_neg hc, h1, h2]

/-- **C113 as one would want it:** asking a request for a range of its arguments gives an iterator over exactly those
whose indices lie within the range, and its `len` tells how many these are. -/
def C113_Statement : Prop :=
  ∀ (m : Mode) (r : Request) (c : CommandId) (kt : Option KeyType) (args : List Bytes) (lo hi : Bound),
    Views r c kt args → args ≠ [] → args.length ≤ 256 → Bound.fits lo → Bound.fits hi →
    ∃ it, r.args m lo hi = some (some it) ∧ Collected m it (itemsIn lo hi args) true ∧ it.len = (itemsIn lo hi args).length

/-- C113, what holds: for ranges that do not end before they start (and stay clear of `usize::MAX`), exactly the
arguments in the range are produced. Missing: `len`, which is right only for ranges that start at the first
argument and end at or before the last, and ranges like `2..1` (see C114). -/
theorem C113_in_range_partial (m : Mode) (h : Views r c kt args) (hne : args ≠ []) (hn : args.length ≤ 256) {lo hi : Bound}
    {s e : Nat} (hs : Starts lo s) (he : Stops args.length hi e) (hle : s ≤ e) (hs' : s < 2 ^ 64 - 1) (he' : e < 2 ^ 64) :
    ∃ it, r.args m lo hi = some (some it) ∧ Collected m it (itemsIn lo hi args) true ∧
      (s = 0 → e ≤ args.length → it.len = (itemsIn lo hi args).length) := by
  refine ⟨⟨s, e, r⟩, args_range m h hne hs he (by omega) he', ?_, ?_⟩
  · have := collected_from m h s e (by omega) (by omega)
    rw [if_pos hle] at this
    rwa [inRange_eq hs he, List.drop_take]
  · intro h0 h1
    rw [inRange_eq hs he, h0, List.drop_zero, List.length_take]
    exact (Nat.min_eq_left h1).symm

/-- **C114.** A range that ends before it starts gives every argument from its start on, where one would expect
none. -/
theorem C114_backwards (m : Mode) (h : Views r c kt args) (hne : args ≠ []) (hn : args.length ≤ 256) {lo hi : Bound}
    {s e : Nat} (hs : Starts lo s) (he : Stops args.length hi e) (hlt : e < s) (hs' : s < 2 ^ 64 - 1) :
    ∃ it, r.args m lo hi = some (some it) ∧ Collected m it (args.drop s) true ∧ itemsIn lo hi args = [] := by
  refine ⟨⟨s, e, r⟩, args_range m h hne hs he (by omega) (by omega), ?_, ?_⟩
  · have := collected_from m h s e (by omega) (by omega)
    rwa [if_neg (by omega)] at this
  · rw [inRange_eq hs he]
    apply List.drop_eq_nil_of_le
    rw [List.length_take]
    omega

/-- C114: `len` is the first index after the range, wherever the range starts, whether or not there are that many
arguments, and however many have been taken. -/
theorem C114_len (m : Mode) (h : Views r c kt args) (hne : args ≠ []) {lo hi : Bound} {s e : Nat} (hs : Starts lo s)
    (he : Stops args.length hi e) (hs' : s < 2 ^ 64) (he' : e < 2 ^ 64) :
    ∃ it, r.args m lo hi = some (some it) ∧ it.len = e ∧
      ∀ (it' it'' : ArgIter) (a : Option Bytes), it'.next m = some (a, it'') → it''.len = it'.len := by
  refine ⟨⟨s, e, r⟩, args_range m h hne hs he hs' he', rfl, fun it' it'' a hnx => ?_⟩
  unfold ArgIter.next at hnx
  split at hnx
  · cases hnx
    rfl
  · split at hnx
    · cases hnx
    · cases hnx
      rfl

/-- C114, at the ends of `usize`: a range that starts after `usize::MAX` or ends with it makes a debug build panic, and
so does the first step through one that starts with it. -/
theorem C114_limits (h : Views r c kt args) (hne : args ≠ []) (hn : args.length ≤ 256) (lo hi : Bound) :
    r.args .debug (.excluded (2 ^ 64 - 1)) hi = none ∧
    (∀ s, Starts lo s → s < 2 ^ 64 → r.args .debug lo (.included (2 ^ 64 - 1)) = none) ∧
    ∃ it, r.args .debug (.included (2 ^ 64 - 1)) .unbounded = some (some it) ∧ it.next .debug = none := by
  have hc : r.argCount ≠ 0 := by
    rw [h.count]
    simpa using hne
  have hmax : addU .debug 64 (2 ^ 64 - 1) 1 = none := rfl
  refine ⟨?_, fun s hs hlt => ?_, ?_⟩
  · simp only [Request.args, if_neg hc, Bound.start, hmax]
  · have h1 : lo.start .debug = some s := by
      cases lo <;> simp only [Starts] at hs <;> subst hs
      · rfl
      · simp only [Bound.start, addU, if_pos hlt]
      · rfl
    simp only [Request.args, if_neg hc, h1, Bound.stop, hmax]
  · refine ⟨⟨2 ^ 64 - 1, args.length, r⟩, args_range .debug h hne rfl rfl (by omega) (by omega), ?_⟩
    simp only [ArgIter.next]
    rw [if_neg (by omega), hmax]

/-- C114: a request without arguments gives no iterator, whatever the range. -/
theorem C114_none (m : Mode) (h : Views r c kt []) (lo hi : Bound) : r.args m lo hi = some none := by
  unfold Request.args
  rw [if_pos (by rw [h.count]; rfl)]

/-- The lists of arguments the commands work with are those the iterator goes through: `args(..)` and `args(1..)` where
the transcription of the commands has `argsFrom 0` and `argsFrom 1`, and `len` of `args(..)` is their number. -/
theorem C114_commands (m : Mode) (h : Views r c kt args) (hne : args ≠ []) (hn : args.length ≤ 256) :
    (∃ it, r.args m .unbounded .unbounded = some (some it) ∧ r.argsFrom 0 = some args ∧ Collected m it args true ∧
      it.len = args.length) ∧
    ∃ it, r.args m (.included 1) .unbounded = some (some it) ∧ r.argsFrom 1 = some args.tail ∧ Collected m it args.tail true := by
  have hlen : 0 < args.length := List.length_pos_iff.2 hne
  refine ⟨⟨⟨0, args.length, r⟩, args_range m h hne rfl rfl (by omega) (by omega), ?_, ?_, rfl⟩,
    ⟨⟨1, args.length, r⟩, args_range m h hne rfl rfl (by omega) (by omega), ?_, ?_⟩⟩
  · rw [argsFrom_eq h, if_neg hne, List.drop_zero]
  · have := collected_from m h 0 args.length (by omega) (by omega)
    simpa using this
  · rw [argsFrom_eq h, if_neg hne, List.drop_one]
  · have := collected_from m h 1 args.length (by omega) (by omega)
    rw [if_pos (by omega), List.take_of_length_le (by simp)] at this
    simpa using this

/-- What a loop sees is determined. -/
theorem collected_unique {m : Mode} {it : ArgIter} {as : List Bytes} {ok : Bool} (h : Collected m it as ok) :
    ∀ {as' : List Bytes} {ok' : Bool}, Collected m it as' ok' → as = as' ∧ ok = ok' := by
  induction h with
  | done h =>
    intro as' ok' h'
    cases h' with
    | done h' => exact ⟨rfl, rfl⟩
    | item h' _ => rw [h] at h'; cases h'
    | panic h' => rw [h] at h'; cases h'
  | item h _ ih =>
    intro as' ok' h'
    cases h' with
    | done h' => rw [h] at h'; cases h'
    | item h' hr =>
      rw [h] at h'
      cases h'
      obtain ⟨rfl, rfl⟩ := ih hr
      exact ⟨rfl, rfl⟩
    | panic h' => rw [h] at h'; cases h'
  | panic h =>
    intro as' ok' h'
    cases h' with
    | done h' => rw [h] at h'; cases h'
    | item h' _ => rw [h] at h'; cases h'
    | panic h' => exact ⟨rfl, rfl⟩

/-- A request with the two arguments `k` and `v`. -/
private def two : Request := call .set none [[107], [118]]

private theorem two_views : Views two .set none [[107], [118]] :=
  call_views .set none [[107], [118]] (by decide) (by decide) (by decide)

/-- C113 fails both ways: `args(1..)` has one item and says two, and `args(1..0)` has one item where none is in the
range. -/
theorem C113_false : ¬ C113_Statement := by
  intro hall
  obtain ⟨it, h1, h2, _⟩ := hall .debug two _ _ _ (.included 1) (.excluded 0) two_views (by decide) (by decide)
    (by simp [Bound.fits]) (by simp [Bound.fits])
  obtain ⟨it', h3, h4, h5⟩ := C114_backwards .debug two_views (by decide) (by decide) (lo := .included 1) (hi := .excluded 0)
    rfl rfl (by decide) (by decide)
  rw [h1] at h3
  cases h3
  rw [h5] at h2
  exact absurd (collected_unique h2 h4).1 (by decide)

theorem C113_len_false : ∃ it, two.args .release (.included 1) .unbounded = some (some it) ∧
    Collected .release it [[118]] true ∧ it.len = 2 := by
  obtain ⟨it, h1, h2, _⟩ := C113_in_range_partial .release two_views (by decide) (by decide) (lo := .included 1)
    (hi := .unbounded) rfl rfl (by decide) (by decide) (by decide)
  obtain ⟨it', h3, h4, _⟩ := C114_len .release two_views (by decide) (lo := .included 1) (hi := .unbounded) rfl rfl (by decide)
    (by decide)
  rw [h1] at h3
  cases h3
  exact ⟨it, h1, h2, h4⟩

/-- The hypotheses are met, and `args(..=0)` goes through the first argument only. -/
example : ∃ it, two.args .debug .unbounded (.included 0) = some (some it) ∧ Collected .debug it [[107]] true ∧ it.len = 1 := by
  obtain ⟨it, h1, h2, h3⟩ := C113_in_range_partial .debug two_views (by decide) (by decide) (lo := .unbounded)
    (hi := .included 0) rfl rfl (by decide) (by decide) (by decide)
  exact ⟨it, h1, h2, h3 rfl (by decide)⟩

/-! ## Further concrete cases -/

/-- The second argument up to before the first. -/
example : ∃ it, two.args .release (.included 1) (.excluded 0) = some (some it) ∧ Collected .release it [[118]] true ∧
    itemsIn (.included 1) (.excluded 0) [[107], [118]] = [] :=
  C114_backwards .release two_views (by decide) (by decide) (s := 1) (e := 0) rfl rfl (by decide) (by decide)

/-- What commands ask for. -/
example : ∃ it, two.args .debug (.included 1) .unbounded = some (some it) ∧ two.argsFrom 1 = some [[118]] ∧ Collected .debug it [[118]] true :=
  (C114_commands .debug two_views (by decide) (by decide)).2

/-- The length of a range is where it ends. -/
example : ∃ it, two.args .debug (.included 1) .unbounded = some (some it) ∧ it.len = 2 := by
  obtain ⟨it, h1, h2, -⟩ := C114_len .debug two_views (by decide) (lo := .included 1) (hi := .unbounded) rfl rfl (by decide) (by decide)
  exact ⟨it, h1, h2⟩

/-- Bounds at the end of the integers. -/
example : two.args .debug (.excluded (2 ^ 64 - 1)) .unbounded = none ∧ two.args .debug .unbounded (.included (2 ^ 64 - 1)) = none :=
  ⟨(C114_limits two_views (by decide) (by decide) .unbounded .unbounded).1,
    (C114_limits two_views (by decide) (by decide) .unbounded .unbounded).2.1 0 rfl (by decide)⟩

/-- A request without arguments. -/
example (m : Mode) (lo hi : Bound) : (call .echo none []).args m lo hi = some none :=
  C114_none m (call_views .echo none [] (by decide) (by decide) (by decide)) lo hi

end Hop
