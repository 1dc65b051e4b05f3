import Verif.Model.ResponseParser
import Verif.Lemmas.ResponseWriter
import Verif.Lemmas.BuilderValue

/-! Lemmas about the response decoder. -/

namespace Hop.RespParser

open Spec

theorem debugAssert_true {m : Mode} {p : Bool} {k : Step} (h : p = true) : debugAssert m p k = k := by
  simp [debugAssert, h]

theorem debugAssert_next {m : Mode} {p : Bool} {k : Step} {c : Ctx} :
    debugAssert m p k = .next c ↔ (m = .debug → p = true) ∧ k = .next c := by
  unfold debugAssert
  split
  · rename_i h; simp [h.1, h.2]
  · rename_i h
    cases m <;> cases p <;> simp_all

theorem remainingBytes_ne_next (m : Mode) (a b d : Nat) (c : Ctx) : remainingBytes m a b d ≠ .next c := by
  simp [remainingBytes, debugAssert_next]

theorem subThen_ne_next (m : Mode) (a b : Nat) (c : Ctx) : subThen m a b .readBytes ≠ .next c := by
  unfold subThen
  split
  · simp
  · cases m <;> simp

theorem slice_append' {buf : Bytes} {a b : Nat} {s : Bytes} (ext : Bytes) (h : slice buf a b = some s) :
    slice (buf ++ ext) a b = some s := slice_append h

theorem getElem?_append' {buf : Bytes} {i : Nat} {x : UInt8} (ext : Bytes) (h : buf[i]? = some x) :
    (buf ++ ext)[i]? = some x := by
  rw [List.getElem?_append_left]
  · exact h
  · rcases Nat.lt_or_ge i buf.length with h1 | h1
    · exact h1
    · simp [List.getElem?_eq_none h1] at h

/-- A round that makes progress makes the same progress on a longer buffer. -/
theorem step_next_append {m : Mode} {c c' : Ctx} {buf : Bytes} (ext : Bytes)
    (h : step m c buf = .next c') : step m c (buf ++ ext) = .next c' := by
  obtain ⟨idx, stage⟩ := c
  have hmono : ∀ k : Nat, (m = .debug → decide (buf.length > k) = true) →
      (m = .debug → decide ((buf ++ ext).length > k) = true) := by
    intro k h hm
    have := h hm
    simp only [decide_eq_true_eq, List.length_append] at this ⊢
    omega
  cases stage with
  | init =>
    simp only [step, stageInit, debugAssert_next] at h ⊢
    refine ⟨h.1, ?_⟩
    have h := h.2
    cases hs : slice buf 0 4 with
    | none => simp [hs] at h
    | some b =>
      rw [slice_append' ext hs]
      simp only [hs] at h
      simp only
      split at h
      · simp at h
      · rw [if_neg (by simp; omega)]; exact h
  | determineType =>
    simp only [step, stageDetermineType, debugAssert_next] at h ⊢
    refine ⟨h.1, ?_⟩
    have h := h.2
    cases hs : buf[idx]? with
    | none => simp [hs] at h
    | some b =>
      rw [getElem?_append' ext hs]
      simpa only [hs] using h
  | typeInit kind n =>
    simp only [step, stageTypeInit, debugAssert_next] at h ⊢
    refine ⟨h.1, ?_⟩
    have h := h.2
    cases hs : slice buf idx (idx + n) with
    | none => simp only [hs] at h; exact absurd h (subThen_ne_next _ _ _ _)
    | some b =>
      rw [slice_append' ext hs]
      simpa only [hs] using h
  | boolean =>
    simp only [step, stageBoolean, debugAssert_next] at h
    have h := h.2
    split at h <;> simp at h
  | bytes n =>
    simp only [step, stageBytes, debugAssert_next] at h
    have h := h.2.2
    split at h
    · simp at h
    · exact absurd h (remainingBytes_ne_next _ _ _ _ _)
  | float =>
    simp only [step, stageFloat, debugAssert_next] at h
    have h := h.2
    split at h <;> simp at h
  | integer =>
    simp only [step, stageInteger, debugAssert_next] at h
    have h := h.2
    split at h <;> simp at h
  | dispatchError =>
    simp only [step, stageDispatchError, debugAssert_next] at h
    have h := h.2
    repeat' split at h
    all_goals simp at h
  | parseError =>
    simp only [step, stageParseError, debugAssert_next] at h
    have h := h.2
    repeat' split at h
    all_goals simp at h
  | string n =>
    simp only [step, stageString, debugAssert_next] at h
    have h := h.2.2
    split at h
    · exact absurd h (subThen_ne_next _ _ _ _)
    · split at h <;> simp at h
  | list args n =>
    simp only [step, stageList, debugAssert_next] at h ⊢
    refine ⟨h.1, hmono _ h.2.1, ?_⟩
    have h := h.2.2
    cases hs : slice buf idx (idx + 4) with
    | none => simp only [hs] at h; exact absurd h (remainingBytes_ne_next _ _ _ _ _)
    | some b =>
      rw [slice_append' ext hs]
      simp only [hs] at h ⊢
      cases hs2 : slice buf (idx + 4) (idx + 4 + beNat b) with
      | none => simp only [hs2] at h; exact absurd h (subThen_ne_next _ _ _ _)
      | some b2 =>
        rw [slice_append' ext hs2]
        simpa only [hs2] using h
  | set args n =>
    simp only [step, stageSet, debugAssert_next] at h ⊢
    refine ⟨h.1, hmono _ h.2.1, ?_⟩
    have h := h.2.2
    cases hs : slice buf idx (idx + 2) with
    | none => simp only [hs] at h; exact absurd h (remainingBytes_ne_next _ _ _ _ _)
    | some b =>
      rw [slice_append' ext hs]
      simp only [hs] at h ⊢
      cases hs2 : slice buf (idx + 2) (idx + 2 + beNat b) with
      | none => simp only [hs2] at h; exact absurd h (remainingBytes_ne_next _ _ _ _ _)
      | some b2 =>
        rw [slice_append' ext hs2]
        simpa only [hs2] using h
  | map mp n =>
    simp only [step, stageMap, debugAssert_next] at h ⊢
    refine ⟨h.1, hmono _ h.2.1, ?_⟩
    have h := h.2.2
    cases hs : slice buf idx (idx + 1) with
    | none => simp only [hs] at h; exact absurd h (remainingBytes_ne_next _ _ _ _ _)
    | some b =>
      rw [slice_append' ext hs]
      simp only [hs] at h ⊢
      cases hs2 : slice buf (idx + 1) (idx + 1 + beNat b) with
      | none => simp only [hs2] at h; exact absurd h (remainingBytes_ne_next _ _ _ _ _)
      | some b2 =>
        rw [slice_append' ext hs2]
        simp only [hs2] at h ⊢
        cases hs3 : slice buf (idx + 1 + beNat b) (idx + 1 + beNat b + 4) with
        | none => simp only [hs3] at h; exact absurd h (remainingBytes_ne_next _ _ _ _ _)
        | some b3 =>
          rw [slice_append' ext hs3]
          simp only [hs3] at h ⊢
          cases hs4 : slice buf (idx + 1 + beNat b + 4) (idx + 1 + beNat b + 4 + beNat b3) with
          | none => simp only [hs4] at h; exact absurd h (remainingBytes_ne_next _ _ _ _ _)
          | some b4 =>
            rw [slice_append' ext hs4]
            simpa only [hs4] using h

/-! ## Termination -/

/-- Rounds the loop can still take. -/
def rank (c : Ctx) (len : Nat) : Nat :=
  match c.stage with
  | .init => len + 3
  | .determineType => len + 2
  | .typeInit .. => len + 1
  | .list .. | .map .. | .set .. => len - c.idx
  | _ => 0

theorem step_next_rank {m : Mode} {c c' : Ctx} {buf : Bytes} (h : step m c buf = .next c') :
    rank c' buf.length < rank c buf.length := by
  obtain ⟨idx, stage⟩ := c
  cases stage with
  | init =>
    simp only [step, stageInit, debugAssert_next] at h
    have h := h.2
    repeat' split at h
    all_goals first | (simp at h; done) | skip
    simp only [Step.next.injEq] at h
    subst h
    simp [rank]
  | determineType =>
    simp only [step, stageDetermineType, debugAssert_next] at h
    have h := h.2
    repeat' split at h
    all_goals first | (simp at h; done) | skip
    simp only [Step.next.injEq] at h
    subst h
    rename_i kind _
    cases kind <;> simp [rank, stageOfKind]
  | typeInit kind n =>
    simp only [step, stageTypeInit, debugAssert_next] at h
    have h := h.2
    split at h
    · exact absurd h (subThen_ne_next _ _ _ _)
    · cases kind <;> simp only at h <;> repeat' split at h
      all_goals first | (simp at h; done) | skip
      all_goals
        simp only [Step.next.injEq] at h
        subst h
        simp [rank]
        try omega
  | boolean =>
    simp only [step, stageBoolean, debugAssert_next] at h
    have h := h.2
    split at h <;> simp at h
  | bytes n =>
    simp only [step, stageBytes, debugAssert_next] at h
    have h := h.2.2
    split at h
    · simp at h
    · exact absurd h (remainingBytes_ne_next _ _ _ _ _)
  | float =>
    simp only [step, stageFloat, debugAssert_next] at h
    have h := h.2
    split at h <;> simp at h
  | integer =>
    simp only [step, stageInteger, debugAssert_next] at h
    have h := h.2
    split at h <;> simp at h
  | dispatchError =>
    simp only [step, stageDispatchError, debugAssert_next] at h
    have h := h.2
    repeat' split at h
    all_goals simp at h
  | parseError =>
    simp only [step, stageParseError, debugAssert_next] at h
    have h := h.2
    repeat' split at h
    all_goals simp at h
  | string n =>
    simp only [step, stageString, debugAssert_next] at h
    have h := h.2.2
    split at h
    · exact absurd h (subThen_ne_next _ _ _ _)
    · split at h <;> simp at h
  | list args n =>
    simp only [step, stageList, debugAssert_next] at h
    have h := h.2.2
    split at h
    · exact absurd h (remainingBytes_ne_next _ _ _ _ _)
    · split at h
      · exact absurd h (subThen_ne_next _ _ _ _)
      · rename_i hs
        have := (slice_eq_some.mp hs).2.1
        split at h
        · simp only [Step.next.injEq] at h
          subst h
          simp only [rank]; omega
        · simp at h
  | set args n =>
    simp only [step, stageSet, debugAssert_next] at h
    have h := h.2.2
    split at h
    · exact absurd h (remainingBytes_ne_next _ _ _ _ _)
    · split at h
      · exact absurd h (remainingBytes_ne_next _ _ _ _ _)
      · rename_i hs
        have := (slice_eq_some.mp hs).2.1
        split at h
        · simp only [Step.next.injEq] at h
          subst h
          simp only [rank]; omega
        · simp at h
  | map mp n =>
    simp only [step, stageMap, debugAssert_next] at h
    have h := h.2.2
    split at h
    · exact absurd h (remainingBytes_ne_next _ _ _ _ _)
    · split at h
      · exact absurd h (remainingBytes_ne_next _ _ _ _ _)
      · split at h
        · exact absurd h (remainingBytes_ne_next _ _ _ _ _)
        · split at h
          · exact absurd h (remainingBytes_ne_next _ _ _ _ _)
          · rename_i hs
            have := (slice_eq_some.mp hs).2.1
            split at h
            · simp only [Step.next.injEq] at h
              subst h
              simp only [rank]; omega
            · simp at h

theorem loop_not_stuck (m : Mode) (n : Nat) (c : Ctx) (buf : Bytes) (h : rank c buf.length < n) :
    (loop m n c buf).1 ≠ .stuck := by
  induction n generalizing c with
  | zero => omega
  | succ n ih =>
    simp only [loop]
    split <;> try simp
    rename_i c' hs
    exact ih c' (by have := step_next_rank hs; omega)

theorem rank_lt (c : Ctx) (len : Nat) : rank c len < len + 4 := by
  unfold rank; split <;> omega

theorem feed_not_stuck (m : Mode) (c : Ctx) (buf : Bytes) : (feed m c buf).1 ≠ .stuck :=
  loop_not_stuck m _ c buf (rank_lt c _)

theorem loop_succ (m : Mode) (n : Nat) (c : Ctx) (buf : Bytes) (h : (loop m n c buf).1 ≠ .stuck) :
    loop m (n + 1) c buf = loop m n c buf := by
  induction n generalizing c with
  | zero => simp [loop] at h
  | succ n ih =>
    rw [loop]
    conv => rhs; rw [loop]
    rw [loop] at h
    split <;> rename_i hs <;> simp only [hs] at h ⊢
    exact ih _ h

theorem loop_mono (m : Mode) (n k : Nat) (c : Ctx) (buf : Bytes) (h : (loop m n c buf).1 ≠ .stuck) :
    loop m (n + k) c buf = loop m n c buf := by
  induction k with
  | zero => rfl
  | succ k ih => rw [← Nat.add_assoc, loop_succ _ _ _ _ (by rw [ih]; exact h), ih]

theorem loop_eq_feed (m : Mode) (n : Nat) (c : Ctx) (buf : Bytes) (h : (loop m n c buf).1 ≠ .stuck) :
    loop m n c buf = feed m c buf := by
  unfold feed
  rcases Nat.le_total n (buf.length + 4) with hle | hle
  · obtain ⟨k, hk⟩ := Nat.exists_eq_add_of_le hle
    rw [hk, loop_mono _ _ _ _ _ h]
  · obtain ⟨k, hk⟩ := Nat.exists_eq_add_of_le hle
    rw [hk, loop_mono _ _ _ _ _ (feed_not_stuck m c buf)]

theorem feed_next {m : Mode} {c c' : Ctx} {buf : Bytes} (h : step m c buf = .next c') :
    feed m c buf = feed m c' buf := by
  have h1 : loop m (buf.length + 5) c buf = feed m c' buf := by
    rw [loop, h]; rfl
  rw [← h1]
  exact (loop_eq_feed _ _ _ _ (by rw [h1]; exact feed_not_stuck _ _ _)).symm

theorem feed_concluded {m : Mode} {c : Ctx} {buf : Bytes} {r : Response} (h : step m c buf = .concluded r) :
    feed m c buf = (.concluded r, Ctx.new) := by simp [feed, loop, h]
theorem feed_readBytes {m : Mode} {c : Ctx} {buf : Bytes} {n : Nat} (h : step m c buf = .readBytes n) :
    feed m c buf = (.readBytes n, c) := by simp [feed, loop, h]
theorem feed_error {m : Mode} {c : Ctx} {buf : Bytes} {e : Error} (h : step m c buf = .error e) :
    feed m c buf = (.error e, c) := by simp [feed, loop, h]
theorem feed_panic {m : Mode} {c : Ctx} {buf : Bytes} (h : step m c buf = .panic) :
    feed m c buf = (.panic, c) := by simp [feed, loop, h]

/-- Induction over the rounds of `feed`. -/
theorem feed_induct {P : Ctx → Fed × Ctx → Prop} (m : Mode) (buf : Bytes)
    (hnext : ∀ c c', step m c buf = .next c' → P c' (feed m c' buf) → P c (feed m c' buf))
    (hstop : ∀ c, (∀ c', step m c buf ≠ .next c') → P c (feed m c buf)) (c : Ctx) :
    P c (feed m c buf) := by
  induction hr : rank c buf.length using Nat.strongRecOn generalizing c with
  | ind n ih =>
    cases hs : step m c buf with
    | next c' =>
      rw [feed_next hs]
      exact hnext c c' hs (ih _ (by rw [← hr]; exact step_next_rank hs) c' rfl)
    | concluded _ => exact hstop c (by simp [hs])
    | readBytes _ => exact hstop c (by simp [hs])
    | error _ => exact hstop c (by simp [hs])
    | panic => exact hstop c (by simp [hs])

theorem feed_read_append (m : Mode) (c : Ctx) (buf ext : Bytes) :
    ∀ n c', feed m c buf = (.readBytes n, c') → feed m c' (buf ++ ext) = feed m c (buf ++ ext) := by
  refine feed_induct (P := fun c r => ∀ n c', r = (.readBytes n, c') →
    feed m c' (buf ++ ext) = feed m c (buf ++ ext)) m buf ?_ ?_ c
  · intro c c1 hs ih n c' hr
    rw [ih n c' hr, feed_next (step_next_append ext hs)]
  · intro c hs n c' hr
    cases hst : step m c buf with
    | next c1 => exact absurd hst (hs c1)
    | concluded _ => rw [feed_concluded hst] at hr; simp at hr
    | readBytes _ => rw [feed_readBytes hst] at hr; simp at hr; rw [hr.2]
    | error e => rw [feed_error hst] at hr; simp at hr
    | panic => rw [feed_panic hst] at hr; simp at hr

/-! ## Decoding frames -/

theorem feed_header (m : Mode) (t : UInt8) (rest tail : Bytes) (h : (t :: rest).length < 2 ^ 32) :
    feed m Ctx.new (beBytes 4 (t :: rest).length ++ (t :: rest) ++ tail) =
      match ResponseType.ofByte t with
      | none => (.error .responseTypeInvalid, { idx := 4, stage := .determineType })
      | some k => feed m { idx := 5, stage := stageOfKind k }
          (beBytes 4 (t :: rest).length ++ (t :: rest) ++ tail) := by
  generalize hbuf : beBytes 4 (t :: rest).length ++ (t :: rest) ++ tail = buf
  have h1 : slice buf 0 4 = some (beBytes 4 (t :: rest).length) := by
    rw [← hbuf, List.append_assoc]
    exact slice_mid [] _ _ _ _ rfl (by simp)
  have h2 : buf[4]? = some t := by
    rw [← hbuf, List.append_assoc, List.getElem?_append_right (by simp)]
    simp
  have hlen : buf.length = 4 + (t :: rest).length + tail.length := by
    rw [← hbuf]; simp; omega
  have s1 : step m Ctx.new buf = .next { idx := 4, stage := .determineType } := by
    simp only [step, Ctx.new, stageInit]
    rw [debugAssert_true (by simp), h1]
    simp only
    rw [beNat_beBytes_of_lt (by omega), if_neg (by omega)]
  rw [feed_next s1]
  have s2 : step m { idx := 4, stage := .determineType } buf =
      match ResponseType.ofByte t with
      | none => .error .responseTypeInvalid
      | some k => .next { idx := 5, stage := stageOfKind k } := by
    simp only [step, stageDetermineType]
    rw [debugAssert_true (by simp), h2]
    rfl
  cases hk : ResponseType.ofByte t with
  | none => rw [hk] at s2; exact feed_error s2
  | some k => rw [hk] at s2; rw [feed_next s2]

/-- The counted part of a frame, from the count field on. -/
theorem feed_typeInit (m : Mode) (k : ResponseType) (n len : Nat) (pre rest : Bytes) (hp : pre.length = 5)
    (h : len < 256 ^ n) :
    step m { idx := 5, stage := .typeInit k n } (pre ++ (beBytes n len ++ rest)) =
      match k with
      | .bytes => .next { idx := 5 + n, stage := .bytes len }
      | .list => .next { idx := 5 + n, stage := .list [] len }
      | .map =>
        if len = 0 then .concluded (.value (.map []))
        else .next { idx := 5 + n, stage := .map [] len }
      | .set => .next { idx := 5 + n, stage := .set [] len }
      | .string =>
        if len = 0 then .concluded (.value (.string []))
        else .next { idx := 5 + n, stage := .string len }
      | _ => .panic := by
  have h1 : slice (pre ++ (beBytes n len ++ rest)) 5 (5 + n) = some (beBytes n len) := by
    rw [← List.append_assoc]
    exact slice_mid _ _ _ _ _ hp.symm (by simp [hp])
  simp only [step, stageTypeInit]
  rw [debugAssert_true (by simp), h1]
  simp only
  rw [beNat_beBytes_of_lt h]
  cases k <;> rfl

theorem feed_list (m : Mode) (items : List Bytes) (pre rest : Bytes) (args : List Bytes) (n : Nat)
    (hpre : 6 < pre.length) (hne : items ≠ []) (hn : args.length + items.length = n)
    (hl : ∀ i ∈ items, i.length < 2 ^ 32) :
    feed m { idx := pre.length, stage := .list args n } (pre ++ (items.flatMap listItem ++ rest)) =
      (.concluded (.value (.list (args ++ items))), Ctx.new) := by
  induction items generalizing pre args with
  | nil => exact absurd rfl hne
  | cons x xs ih =>
    generalize hbuf : pre ++ ((x :: xs).flatMap listItem ++ rest) = buf
    have e1 : buf = pre ++ beBytes 4 x.length ++ (x ++ (xs.flatMap listItem ++ rest)) := by
      rw [← hbuf]; simp [listItem]
    have e2 : buf = (pre ++ beBytes 4 x.length) ++ x ++ (xs.flatMap listItem ++ rest) := by
      rw [← hbuf]; simp [listItem]
    have s1 : slice buf pre.length (pre.length + 4) = some (beBytes 4 x.length) := by
      rw [e1]; exact slice_mid _ _ _ _ _ rfl (by simp)
    have s2 : slice buf (pre.length + 4) (pre.length + 4 + x.length) = some x := by
      rw [e2]; exact slice_mid _ _ _ _ _ (by simp) (by simp)
    have hlen : 6 < buf.length := by rw [e1]; simp; omega
    have st : step m { idx := pre.length, stage := .list args n } buf =
        if (args ++ [x]).length < n then
          .next { idx := pre.length + 4 + x.length, stage := .list (args ++ [x]) n }
        else .concluded (.value (.list (args ++ [x]))) := by
      simp only [step, stageList]
      rw [debugAssert_true (by simp; omega), debugAssert_true (by simp; omega), s1]
      simp only
      rw [beNat_beBytes_of_lt (by have := hl x List.mem_cons_self; omega), s2]
    simp only [List.length_cons] at hn
    cases xs with
    | nil =>
      rw [if_neg (by simp at hn ⊢; omega)] at st
      exact feed_concluded st
    | cons y ys =>
      rw [if_pos (by simp at hn ⊢; omega)] at st
      rw [feed_next st]
      have := ih (pre ++ beBytes 4 x.length ++ x) (args ++ [x]) (by simp; omega) (by simp)
        (by simp at hn ⊢; omega) (fun i hi => hl i (List.mem_cons_of_mem _ hi))
      have e3 : (pre ++ beBytes 4 x.length ++ x).length = pre.length + 4 + x.length := by simp; omega
      rw [e3, ← e2] at this
      rw [this]
      simp

theorem feed_set (m : Mode) (items : BSet) (pre rest : Bytes) (args : BSet) (n : Nat)
    (hpre : 6 < pre.length) (hne : items ≠ []) (hn : args.length + items.length = n)
    (hl : ∀ i ∈ items, i.length < 2 ^ 16) (hd : (args ++ items).Nodup) :
    feed m { idx := pre.length, stage := .set args n } (pre ++ (items.flatMap setItem ++ rest)) =
      (.concluded (.value (.set (args ++ items))), Ctx.new) := by
  induction items generalizing pre args with
  | nil => exact absurd rfl hne
  | cons x xs ih =>
    generalize hbuf : pre ++ ((x :: xs).flatMap setItem ++ rest) = buf
    have e1 : buf = pre ++ beBytes 2 x.length ++ (x ++ (xs.flatMap setItem ++ rest)) := by
      rw [← hbuf]; simp [setItem]
    have e2 : buf = (pre ++ beBytes 2 x.length) ++ x ++ (xs.flatMap setItem ++ rest) := by
      rw [← hbuf]; simp [setItem]
    have s1 : slice buf pre.length (pre.length + 2) = some (beBytes 2 x.length) := by
      rw [e1]; exact slice_mid _ _ _ _ _ rfl (by simp)
    have s2 : slice buf (pre.length + 2) (pre.length + 2 + x.length) = some x := by
      rw [e2]; exact slice_mid _ _ _ _ _ (by simp) (by simp)
    have hlen : 6 < buf.length := by rw [e1]; simp; omega
    have hx : BSet.insert args x = args ++ [x] := by
      unfold BSet.insert
      rw [if_neg]
      intro hmem
      have := (List.nodup_append.mp hd).2.2 x hmem x List.mem_cons_self
      exact this rfl
    have st : step m { idx := pre.length, stage := .set args n } buf =
        if (args ++ [x]).length < n then
          .next { idx := pre.length + 2 + x.length, stage := .set (args ++ [x]) n }
        else .concluded (.value (.set (args ++ [x]))) := by
      simp only [step, stageSet]
      rw [debugAssert_true (by simp; omega), debugAssert_true (by simp; omega), s1]
      simp only
      rw [beNat_beBytes_of_lt (by have := hl x List.mem_cons_self; omega), s2]
      simp only [hx]
    simp only [List.length_cons] at hn
    cases xs with
    | nil =>
      rw [if_neg (by simp at hn ⊢; omega)] at st
      exact feed_concluded st
    | cons y ys =>
      rw [if_pos (by simp at hn ⊢; omega)] at st
      rw [feed_next st]
      have := ih (pre ++ beBytes 2 x.length ++ x) (args ++ [x]) (by simp; omega) (by simp)
        (by simp at hn ⊢; omega) (fun i hi => hl i (List.mem_cons_of_mem _ hi)) (by simpa using hd)
      have e3 : (pre ++ beBytes 2 x.length ++ x).length = pre.length + 2 + x.length := by simp; omega
      rw [e3, ← e2] at this
      rw [this]
      simp

theorem feed_map (m : Mode) (items : BMap) (pre rest : Bytes) (args : BMap) (n : Nat)
    (hpre : 6 < pre.length) (hne : items ≠ []) (hn : args.length + items.length = n)
    (hl : ∀ i ∈ items, i.1.length < 2 ^ 8) (hl2 : ∀ i ∈ items, i.2.length < 2 ^ 32)
    (hd : ((args ++ items).map Prod.fst).Nodup) :
    feed m { idx := pre.length, stage := .map args n } (pre ++ (items.flatMap mapItem ++ rest)) =
      (.concluded (.value (.map (args ++ items))), Ctx.new) := by
  induction items generalizing pre args with
  | nil => exact absurd rfl hne
  | cons x xs ih =>
    obtain ⟨k, v⟩ := x
    generalize hbuf : pre ++ (((k, v) :: xs).flatMap mapItem ++ rest) = buf
    have e1 : buf = pre ++ beBytes 1 k.length ++
        (k ++ (beBytes 4 v.length ++ (v ++ (xs.flatMap mapItem ++ rest)))) := by
      rw [← hbuf]; simp [mapItem]
    have e2 : buf = (pre ++ beBytes 1 k.length) ++ k ++
        (beBytes 4 v.length ++ (v ++ (xs.flatMap mapItem ++ rest))) := by
      rw [e1]; simp
    have e3 : buf = (pre ++ beBytes 1 k.length ++ k) ++ beBytes 4 v.length ++
        (v ++ (xs.flatMap mapItem ++ rest)) := by
      rw [e1]; simp
    have e4 : buf = (pre ++ beBytes 1 k.length ++ k ++ beBytes 4 v.length) ++ v ++
        (xs.flatMap mapItem ++ rest) := by
      rw [e1]; simp
    have s1 : slice buf pre.length (pre.length + 1) = some (beBytes 1 k.length) := by
      rw [e1]; exact slice_mid _ _ _ _ _ rfl (by simp)
    have s2 : slice buf (pre.length + 1) (pre.length + 1 + k.length) = some k := by
      rw [e2]; exact slice_mid _ _ _ _ _ (by simp) (by simp)
    have s3 : slice buf (pre.length + 1 + k.length) (pre.length + 1 + k.length + 4) =
        some (beBytes 4 v.length) := by
      rw [e3]; exact slice_mid _ _ _ _ _ (by simp; omega) (by simp; omega)
    have s4 : slice buf (pre.length + 1 + k.length + 4) (pre.length + 1 + k.length + 4 + v.length) =
        some v := by
      rw [e4]; exact slice_mid _ _ _ _ _ (by simp; omega) (by simp; omega)
    have hlen : 6 < buf.length := by rw [e1]; simp; omega
    have hx : BMap.insert args k v = args ++ [(k, v)] := by
      apply BMap.insert_of_not_mem
      intro hmem
      rw [List.map_append] at hd
      exact (List.nodup_append.mp hd).2.2 k hmem k (by simp) rfl
    have hk := hl (k, v) List.mem_cons_self
    have hv := hl2 (k, v) List.mem_cons_self
    simp only at hk hv
    have st : step m { idx := pre.length, stage := .map args n } buf =
        if (args ++ [(k, v)]).length < n then
          .next { idx := pre.length + 1 + k.length + 4 + v.length, stage := .map (args ++ [(k, v)]) n }
        else .concluded (.value (.map (args ++ [(k, v)]))) := by
      simp only [step, stageMap]
      rw [debugAssert_true (by simp; omega), debugAssert_true (by simp; omega), s1]
      simp only
      rw [beNat_beBytes_of_lt (by omega), s2]
      simp only
      rw [s3]
      simp only
      rw [beNat_beBytes_of_lt (by omega), s4]
      simp only [hx]
    simp only [List.length_cons] at hn
    cases xs with
    | nil =>
      rw [if_neg (by simp at hn ⊢; omega)] at st
      exact feed_concluded st
    | cons y ys =>
      rw [if_pos (by simp at hn ⊢; omega)] at st
      rw [feed_next st]
      have := ih (pre ++ beBytes 1 k.length ++ k ++ beBytes 4 v.length ++ v) (args ++ [(k, v)])
        (by simp; omega) (by simp)
        (by simp at hn ⊢; omega) (fun i hi => hl i (List.mem_cons_of_mem _ hi))
        (fun i hi => hl2 i (List.mem_cons_of_mem _ hi)) (by simpa using hd)
      have e5 : (pre ++ beBytes 1 k.length ++ k ++ beBytes 4 v.length ++ v).length =
          pre.length + 1 + k.length + 4 + v.length := by simp; omega
      rw [e5, ← e4] at this
      rw [this]
      simp

theorem ofByte_valueCode (v : Value) : ResponseType.ofByte (valueCode v) = some (match v with
    | .boolean _ => .boolean | .bytes _ => .bytes | .float _ => .float | .integer _ => .integer
    | .list _ => .list | .map _ => .map | .set _ => .set | .string _ => .string) := by
  cases v <;> rfl

theorem mem_flatMap_le {α : Type} (f : α → Bytes) (l : List α) (x : α) (h : x ∈ l) :
    (f x).length ≤ (l.flatMap f).length := by
  induction l with
  | nil => simp at h
  | cons y ys ih =>
    simp only [List.flatMap_cons, List.length_append]
    rcases List.mem_cons.mp h with rfl | h
    · omega
    · have := ih h; omega

/-- A frame within the limits decodes to its response, whatever follows it. -/
theorem feed_frame (m : Mode) (r : Response) (tail : Bytes) (h : Fits m r) :
    feed m Ctx.new (frame r ++ tail) = (.concluded r, Ctx.new) := by
  have hbody : (body r).length < 2 ^ 32 := by
    cases r with
    | value v =>
      cases v <;> simp only [Fits, FitsValue] at h <;>
        simp only [body, payload, List.length_cons, List.length_append, beBytes_length, List.length_nil] <;>
        omega
    | _ => simp [body]
  cases r with
  | dispatchError e =>
    rw [frame, body, feed_header m _ _ _ (by simp)]
    show feed m { idx := 5, stage := .dispatchError } _ = _
    apply feed_concluded
    simp only [step, stageDispatchError]
    rw [debugAssert_true (by simp)]
    cases e <;> rfl
  | parseError e =>
    rw [frame, body, feed_header m _ _ _ (by simp)]
    show feed m { idx := 5, stage := .parseError } _ = _
    apply feed_concluded
    simp only [step, stageParseError]
    rw [debugAssert_true (by simp)]
    cases e <;> rfl
  | value v =>
    rw [frame, body, feed_header m _ _ _ (by simpa [body] using hbody), ofByte_valueCode]
    have e1 : beBytes 4 (valueCode v :: payload v).length ++ (valueCode v :: payload v) ++ tail =
        (beBytes 4 (valueCode v :: payload v).length ++ [valueCode v]) ++ (payload v ++ tail) := by simp
    rw [e1]
    have hpre : (beBytes 4 (valueCode v :: payload v).length ++ [valueCode v]).length = 5 := by simp
    generalize beBytes 4 (valueCode v :: payload v).length ++ [valueCode v] = pre at hpre
    simp only [Fits] at h
    cases v with
    | boolean b =>
      apply feed_concluded
      simp only [step, stageOfKind, stageBoolean]
      rw [debugAssert_true (by simp)]
      have : (pre ++ (payload (.boolean b) ++ tail))[5]? = some (if b then 1 else 0) := by
        rw [List.getElem?_append_right (by omega)]
        simp [payload, hpre]
      rw [this]
      cases b <;> rfl
    | float f =>
      apply feed_concluded
      simp only [step, stageOfKind, stageFloat]
      rw [debugAssert_true (by simp)]
      have : slice (pre ++ (payload (.float f) ++ tail)) 5 (5 + 8) = some f.toBytes := by
        rw [← List.append_assoc]
        exact slice_mid _ _ _ _ _ (by omega) (by simp [payload, hpre])
      rw [this]
      simp only [F64.ofBytes_toBytes]
    | integer i =>
      apply feed_concluded
      simp only [step, stageOfKind, stageInteger]
      rw [debugAssert_true (by simp)]
      have : slice (pre ++ (payload (.integer i) ++ tail)) 5 (5 + 8) = some (i64Bytes i) := by
        rw [← List.append_assoc]
        exact slice_mid _ _ _ _ _ (by omega) (by simp [payload, hpre])
      rw [this]
      simp only [i64OfBytes_i64Bytes]
    | bytes b =>
      simp only [FitsValue] at h
      simp only [payload, List.append_assoc, stageOfKind]
      rw [feed_next (feed_typeInit m .bytes 4 b.length pre (b ++ tail) hpre (by omega))]
      have hs : slice (pre ++ (beBytes 4 b.length ++ (b ++ tail))) (5 + 4) (5 + 4 + b.length) = some b := by
        have : pre ++ (beBytes 4 b.length ++ (b ++ tail)) = (pre ++ beBytes 4 b.length) ++ b ++ tail := by simp
        rw [this]
        exact slice_mid _ _ _ _ _ (by simp; omega) (by simp; omega)
      apply feed_concluded
      simp only [step, stageBytes]
      rw [debugAssert_true (by simp), hs]
      cases m with
      | release => simp [debugAssert]
      | debug =>
        rw [debugAssert_true]
        have := h.2 rfl
        simpa using this
    | string s =>
      simp only [FitsValue] at h
      simp only [payload, List.append_assoc, stageOfKind]
      have hst := feed_typeInit m .string 4 (strBytes s).length pre (strBytes s ++ tail) hpre (by omega)
      by_cases hz : (strBytes s).length = 0
      · simp only [hz, if_true] at hst
        have hz' : s = [] := strBytes_eq_nil.mp (List.length_eq_zero_iff.mp hz)
        subst hz'
        exact feed_concluded hst
      · simp only [if_neg hz] at hst
        rw [feed_next hst]
        have hs : slice (pre ++ (beBytes 4 (strBytes s).length ++ (strBytes s ++ tail))) (5 + 4)
            (5 + 4 + (strBytes s).length) = some (strBytes s) := by
          have : pre ++ (beBytes 4 (strBytes s).length ++ (strBytes s ++ tail)) =
              (pre ++ beBytes 4 (strBytes s).length) ++ strBytes s ++ tail := by simp
          rw [this]
          exact slice_mid _ _ _ _ _ (by simp; omega) (by simp; omega)
        apply feed_concluded
        simp only [step, stageString]
        rw [debugAssert_true (by simp), debugAssert_true (by simp; omega), hs]
        simp only [fromUtf8_strBytes]
    | list l =>
      simp only [FitsValue] at h
      simp only [payload, List.append_assoc, stageOfKind]
      rw [feed_next (feed_typeInit m .list 2 l.length pre (l.flatMap listItem ++ tail) hpre (by omega))]
      have := feed_list m l (pre ++ beBytes 2 l.length) tail [] l.length (by simp; omega) h.1 (by simp)
        (fun i hi => by
          have := mem_flatMap_le listItem l i hi
          have e : (listItem i).length = 4 + i.length := by simp [listItem]
          omega)
      simpa [hpre] using this
    | set s =>
      simp only [FitsValue] at h
      simp only [payload, List.append_assoc, stageOfKind]
      rw [feed_next (feed_typeInit m .set 2 s.length pre (s.flatMap setItem ++ tail) hpre (by omega))]
      have := feed_set m s (pre ++ beBytes 2 s.length) tail [] s.length (by simp; omega) h.2.1 (by simp)
        h.2.2.2.1 (by simpa using h.1)
      simpa [hpre] using this
    | map mp =>
      simp only [FitsValue] at h
      simp only [payload, List.append_assoc, stageOfKind]
      have hst := feed_typeInit m .map 2 mp.length pre (mp.flatMap mapItem ++ tail) hpre (by omega)
      by_cases hz : mp.length = 0
      · simp only [hz, if_true] at hst
        have hz' : mp = [] := List.length_eq_zero_iff.mp hz
        subst hz'
        exact feed_concluded hst
      · simp only [if_neg hz] at hst
        rw [feed_next hst]
        have := feed_map m mp (pre ++ beBytes 2 mp.length) tail [] mp.length (by simp; omega)
          (by intro h0; subst h0; simp at hz) (by simp) h.2.2.1
          (fun i hi => by
            have := mem_flatMap_le mapItem mp i hi
            rw [mapItem_length] at this
            omega) (by simpa using h.1)
        simpa [hpre] using this

end Hop.RespParser
