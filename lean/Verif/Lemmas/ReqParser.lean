import Verif.Model.RequestParser
import Verif.Lemmas.Encode
import Verif.Spec.Frames

/-! Lemmas about the request parser. -/

namespace Hop.ReqParser

open Spec

theorem forall_u8 {P : UInt8 → Prop} (h : ∀ n : Fin 256, P (UInt8.ofFin n)) : ∀ b, P b :=
  fun b => h b.toFin

/-! ## Termination -/

/-- Rounds the loop can still take. -/
def rank (c : Ctx) (len : Nat) : Nat :=
  match c.stage with
  | .init => len + 3 - c.idx
  | .kind .. => len + 2 - c.idx
  | .arguments .. => len + 1 - c.idx

theorem step_next_rank {c c' : Ctx} {buf : Bytes} (h : step c buf = .next c') :
    rank c' buf.length < rank c buf.length := by
  unfold step at h
  split at h
  · simp at h
  · rename_i hidx
    split at h
    · rename_i hs
      simp only [stageInit] at h
      repeat' split at h
      all_goals first | (simp at h; done) | skip
      all_goals
        simp only [Step.next.injEq] at h
        subst h
        simp only [rank, hs]
        omega
    · rename_i hs
      simp only [stageKind] at h
      split at h
      · simp at h
      · simp only [Step.next.injEq] at h
        subst h
        simp only [rank, hs]
        omega
    · rename_i hs
      simp only [stageArguments] at h
      split at h
      · simp at h
      · rename_i hsl
        rw [slice_eq_some] at hsl
        split at h
        · simp at h
        · split at h
          · split at h
            · simp at h
            · simp only [Step.next.injEq] at h
              subst h
              simp only [rank, hs]
              omega
          · simp at h

theorem loop_not_stuck (n : Nat) (c : Ctx) (buf : Bytes) (h : rank c buf.length < n) :
    (loop n c buf).1 ≠ .stuck := by
  induction n generalizing c with
  | zero => omega
  | succ n ih =>
    simp only [loop]
    split <;> try simp
    rename_i c' hs
    exact ih c' (by have := step_next_rank hs; omega)

theorem rank_lt (c : Ctx) (len : Nat) : rank c len < len + 4 := by
  unfold rank; split <;> omega

theorem feed_not_stuck (c : Ctx) (buf : Bytes) : (feed c buf).1 ≠ .stuck :=
  loop_not_stuck _ c buf (rank_lt c _)

theorem loop_succ (n : Nat) (c : Ctx) (buf : Bytes) (h : (loop n c buf).1 ≠ .stuck) :
    loop (n + 1) c buf = loop n c buf := by
  induction n generalizing c with
  | zero => simp [loop] at h
  | succ n ih =>
    rw [loop]
    conv => rhs; rw [loop]
    rw [loop] at h
    split <;> rename_i hs <;> simp only [hs] at h ⊢
    exact ih _ h

theorem loop_mono (n k : Nat) (c : Ctx) (buf : Bytes) (h : (loop n c buf).1 ≠ .stuck) :
    loop (n + k) c buf = loop n c buf := by
  induction k with
  | zero => rfl
  | succ k ih => rw [← Nat.add_assoc, loop_succ _ _ _ (by rw [ih]; exact h), ih]

/-- The loop's result does not depend on the budget. -/
theorem loop_eq_feed (n : Nat) (c : Ctx) (buf : Bytes) (h : (loop n c buf).1 ≠ .stuck) :
    loop n c buf = feed c buf := by
  unfold feed
  rcases Nat.le_total n (buf.length + 4) with hle | hle
  · obtain ⟨k, hk⟩ := Nat.exists_eq_add_of_le hle
    rw [hk, loop_mono _ _ _ _ h]
  · obtain ⟨k, hk⟩ := Nat.exists_eq_add_of_le hle
    rw [hk, loop_mono _ _ _ _ (feed_not_stuck c buf)]

theorem feed_next {c c' : Ctx} {buf : Bytes} (h : step c buf = .next c') :
    feed c buf = feed c' buf := by
  have h1 : loop (buf.length + 5) c buf = feed c' buf := by
    rw [loop, h]; rfl
  rw [← h1]
  exact (loop_eq_feed _ _ _ (by rw [h1]; exact feed_not_stuck _ _)).symm

theorem feed_of_step {c : Ctx} {buf : Bytes} :
    (∀ cmd kt, step c buf = .finished cmd kt →
      feed c buf = (.request { buf := buf, commandId := cmd, keyType := kt, positions := [] }, Ctx.new)) ∧
    (step c buf = .incomplete → feed c buf = (.more, c)) ∧
    (∀ e, step c buf = .error e → feed c buf = (.error e, c)) ∧
    (step c buf = .panic → feed c buf = (.panic, c)) := by
  refine ⟨?_, ?_, ?_, ?_⟩
  · intro cmd kt h; simp [feed, loop, h, Ctx.reset, Ctx.new]
  · intro h; simp [feed, loop, h]
  · intro e h; simp [feed, loop, h]
  · intro h; simp [feed, loop, h]

/-- Induction over the rounds of `feed`. -/
theorem feed_induct {P : Ctx → Fed × Ctx → Prop} (buf : Bytes)
    (hnext : ∀ c c', step c buf = .next c' → P c' (feed c' buf) → P c (feed c' buf))
    (hstop : ∀ c, (∀ c', step c buf ≠ .next c') → P c (feed c buf)) (c : Ctx) : P c (feed c buf) := by
  induction hr : rank c buf.length using Nat.strongRecOn generalizing c with
  | ind n ih =>
    cases hs : step c buf with
    | next c' =>
      rw [feed_next hs]
      exact hnext c c' hs (ih _ (by rw [← hr]; exact step_next_rank hs) c' rfl)
    | finished a b => exact hstop c (by simp [hs])
    | incomplete => exact hstop c (by simp [hs])
    | error e => exact hstop c (by simp [hs])
    | panic => exact hstop c (by simp [hs])

/-! ## Growing buffers -/

/-- A round that makes progress makes the same progress on a longer buffer. -/
theorem step_next_append {c c' : Ctx} {buf : Bytes} (ext : Bytes) (h : step c buf = .next c') :
    step c (buf ++ ext) = .next c' := by
  unfold step at h ⊢
  split at h
  · simp at h
  · rename_i hidx
    rw [if_neg (by simp; omega)]
    split at h
    · simp only [stageInit] at h ⊢
      cases hb : buf with
      | nil => simp [hb] at h
      | cons x xs => simpa [hb] using h
    · simp only [stageKind] at h ⊢
      cases hb : buf[c.idx]? with
      | none => simp [hb] at h
      | some x =>
        rw [List.getElem?_append_left (by
          rcases Nat.lt_or_ge c.idx buf.length with h1 | h1
          · exact h1
          · simp [List.getElem?_eq_none h1] at hb)]
        simpa [hb] using h
    · simp only [stageArguments] at h ⊢
      split at h
      · simp at h
      · rename_i l hl
        rw [slice_append hl]
        dsimp only
        split at h
        · simp at h
        · rename_i l2 hl2
          rw [slice_append hl2]
          exact h

/-- Waiting is the only reason to come back: feeding more later is the same as feeding it at once. -/
theorem feed_more_append (c : Ctx) (buf ext : Bytes) :
    ∀ c', feed c buf = (.more, c') → feed c' (buf ++ ext) = feed c (buf ++ ext) := by
  refine feed_induct (P := fun c r => ∀ c', r = (.more, c') → feed c' (buf ++ ext) = feed c (buf ++ ext))
    buf ?_ ?_ c
  · intro c c1 hs ih c' hr
    rw [ih c' hr, feed_next (step_next_append ext hs)]
  · intro c hs c' hr
    obtain ⟨h1, h2, h3, h4⟩ := feed_of_step (c := c) (buf := buf)
    cases hst : step c buf with
    | next c1 => exact absurd hst (hs c1)
    | finished a b => rw [h1 _ _ hst] at hr; simp at hr
    | incomplete => rw [h2 hst] at hr; simp at hr; rw [hr]
    | error e => rw [h3 _ hst] at hr; simp at hr
    | panic => rw [h4 hst] at hr; simp at hr

/-! ## Parsing a well-formed argument section -/

/-- From the argument stage, complete chunks that do not conclude the request are consumed. -/
theorem feed_chunks (chunks : List Bytes) (pre rest : Bytes) (ps : List Nat) (n : UInt8)
    (cmd : CommandId) (kt : Option KeyType) (hl : ∀ a ∈ chunks, a.length < 2 ^ 32)
    (hp : ps.length + chunks.length ≤ 256)
    (hn : n = 0 ∨ ps.length + chunks.length < n.toNat) :
    ∃ ps', ps'.length = ps.length + chunks.length ∧
      feed { idx := pre.length, positions := ps, stage := .arguments n cmd kt }
        (pre ++ chunks.flatMap encodeArg ++ rest) =
      feed { idx := pre.length + argsSize chunks, positions := ps', stage := .arguments n cmd kt }
        (pre ++ chunks.flatMap encodeArg ++ rest) := by
  induction chunks generalizing pre ps with
  | nil => exact ⟨ps, by simp, by simp [argsSize_nil]⟩
  | cons a as ih =>
    simp only [List.length_cons] at hp hn
    have ha := hl a List.mem_cons_self
    have hbuf : pre ++ (a :: as).flatMap encodeArg ++ rest =
        (pre ++ encodeArg a) ++ as.flatMap encodeArg ++ rest := by simp
    obtain ⟨ps', h1, h2⟩ := ih (pre ++ encodeArg a) (ps ++ [pre.length + a.length])
      (fun x hx => hl x (List.mem_cons_of_mem _ hx))
      (by simp only [List.length_append, List.length_singleton]; omega)
      (by
        rcases hn with h0 | h0
        · exact Or.inl h0
        · right; simp only [List.length_append, List.length_singleton]; omega)
    refine ⟨ps', by simp at h1 ⊢; omega, ?_⟩
    have hstep : step { idx := pre.length, positions := ps, stage := .arguments n cmd kt }
        (pre ++ (a :: as).flatMap encodeArg ++ rest) =
        .next { idx := pre.length + (4 + a.length), positions := ps ++ [pre.length + a.length],
                stage := .arguments n cmd kt } := by
      have hs1 : slice (pre ++ (a :: as).flatMap encodeArg ++ rest) pre.length (pre.length + 4)
          = some (beBytes 4 a.length) := by
        have : pre ++ (a :: as).flatMap encodeArg ++ rest =
            pre ++ beBytes 4 a.length ++ (a ++ as.flatMap encodeArg ++ rest) := by
          simp [encodeArg]
        rw [this]
        exact slice_mid _ _ _ _ _ rfl (by simp)
      have hlen : pre.length + (4 + a.length) ≤ (pre ++ (a :: as).flatMap encodeArg ++ rest).length := by
        simp [encodeArg]
      have hs2 : ∃ s, slice (pre ++ (a :: as).flatMap encodeArg ++ rest) pre.length
          (pre.length + a.length) = some s := by
        refine ⟨_, slice_eq_some.mpr ⟨by omega, by omega, rfl⟩⟩
      obtain ⟨s, hs2⟩ := hs2
      simp only [step]
      rw [if_neg (by omega)]
      simp only [stageArguments, hs1, beNat_beBytes_of_lt (show a.length < 256 ^ 4 by omega), hs2]
      rw [if_pos (by omega), if_neg]
      simp only [List.length_append, List.length_singleton]
      rcases hn with rfl | hn
      · simp
      · omega
    rw [feed_next hstep, hbuf]
    have h3 : (pre ++ encodeArg a).length = pre.length + (4 + a.length) := by
      simp [encodeArg]
    rw [h3] at h2
    rw [h2, argsSize_cons]
    simp only [Nat.add_assoc]

/-- What the argument stage does with the bytes at its position. -/
theorem step_arguments (pre rest : Bytes) (ps : List Nat) (n : UInt8) (cmd : CommandId)
    (kt : Option KeyType) :
    step { idx := pre.length, positions := ps, stage := .arguments n cmd kt } (pre ++ rest) =
      if rest.length < 4 ∨ rest.length < beNat (rest.take 4) then .incomplete
      else if 256 ≤ ps.length then .panic
      else if ps.length + 1 = n.toNat then .finished cmd kt
      else .next { idx := pre.length + (4 + beNat (rest.take 4)),
                   positions := ps ++ [pre.length + beNat (rest.take 4)],
                   stage := .arguments n cmd kt } := by
  simp only [step]
  rw [if_neg (by simp)]
  simp only [stageArguments]
  by_cases h4 : rest.length < 4
  · rw [if_pos (Or.inl h4)]
    have : slice (pre ++ rest) pre.length (pre.length + 4) = none := by
      rw [slice_eq_none]; simp; omega
    rw [this]
  · have hs1 : slice (pre ++ rest) pre.length (pre.length + 4) = some (rest.take 4) := by
      rw [slice_eq_some]; simp; omega
    rw [hs1]
    dsimp only
    by_cases h5 : rest.length < beNat (rest.take 4)
    · rw [if_pos (Or.inr h5)]
      have : slice (pre ++ rest) pre.length (pre.length + beNat (rest.take 4)) = none := by
        rw [slice_eq_none]; simp; omega
      rw [this]
    · rw [if_neg (show ¬ (rest.length < 4 ∨ rest.length < beNat (rest.take 4)) by omega)]
      have : ∃ s, slice (pre ++ rest) pre.length (pre.length + beNat (rest.take 4)) = some s :=
        ⟨_, slice_eq_some.mpr ⟨by omega, by simp; omega, rfl⟩⟩
      obtain ⟨s, hs⟩ := this
      rw [hs]
      dsimp only
      by_cases h6 : ps.length < 256
      · rw [if_pos h6, if_neg (show ¬ 256 ≤ ps.length by omega)]
        simp only [List.length_append, List.length_singleton]
      · rw [if_neg h6, if_pos (show 256 ≤ ps.length by omega)]

theorem feed_header (cmd : CommandId) (n : UInt8) (rest : Bytes) (hc : cmd ≠ .stats) :
    feed Ctx.new (cmd.toByte :: n :: rest) =
      feed { idx := 2, positions := [], stage := .arguments n cmd none } (cmd.toByte :: n :: rest) := by
  have h1 : step Ctx.new (cmd.toByte :: n :: rest) =
      .next { idx := 1, positions := [], stage := .kind cmd none } := by
    cases cmd <;> first | exact absurd rfl hc | rfl
  have h2 : step { idx := 1, positions := [], stage := .kind cmd none } (cmd.toByte :: n :: rest) =
      .next { idx := 2, positions := [], stage := .arguments n cmd none } := by
    simp [step, stageKind]
  rw [feed_next h1, feed_next h2]

/-- A request or a panic in the argument stage means that the buffer has the announced shape. -/
theorem feed_arguments_sound (rest pre : Bytes) (ps : List Nat) (n : UInt8) (cmd : CommandId)
    (kt : Option KeyType) (r : Fed) (c' : Ctx)
    (h : feed { idx := pre.length, positions := ps, stage := .arguments n cmd kt } (pre ++ rest) = (r, c')) :
    (r = .more) ∨
    ∃ (chunks : List Bytes) (tail : Bytes), rest = chunks.flatMap encodeArg ++ tail ∧ (∀ a ∈ chunks, a.length < 2 ^ 32) ∧
      LastReady tail ∧
      ((r = .panic ∧ 256 ≤ ps.length + chunks.length ∧ (ps.length ≤ 256 → ps.length + chunks.length = 256) ∧
          (n.toNat ≤ ps.length ∨ 256 < n.toNat)) ∨
       (r = .request { buf := pre ++ rest, commandId := cmd, keyType := kt, positions := [] } ∧
          c' = Ctx.new ∧ ps.length + chunks.length + 1 = n.toNat)) := by
  induction hl : rest.length using Nat.strongRecOn generalizing rest pre ps with
  | ind m ih =>
    have hs := step_arguments pre rest ps n cmd kt
    by_cases h1 : rest.length < 4 ∨ rest.length < beNat (rest.take 4)
    · rw [if_pos h1] at hs
      rw [feed_of_step.2.1 hs] at h
      simp only [Prod.mk.injEq] at h
      exact Or.inl h.1.symm
    · rw [if_neg h1] at hs
      have hr : LastReady rest := by unfold LastReady; omega
      by_cases h2 : 256 ≤ ps.length
      · rw [if_pos h2] at hs
        rw [feed_of_step.2.2.2 hs] at h
        simp only [Prod.mk.injEq] at h
        refine Or.inr ⟨[], rest, rfl, by simp, hr, Or.inl ⟨h.1.symm, by simpa using h2, by simp; omega, ?_⟩⟩
        have := n.toNat_lt
        omega
      · rw [if_neg h2] at hs
        by_cases h3 : ps.length + 1 = n.toNat
        · rw [if_pos h3] at hs
          rw [feed_of_step.1 _ _ hs] at h
          simp only [Prod.mk.injEq] at h
          exact Or.inr ⟨[], rest, rfl, by simp, hr, Or.inr ⟨h.1.symm, h.2.symm, by simpa using h3⟩⟩
        · rw [if_neg h3] at hs
          rw [feed_next hs] at h
          by_cases h4 : rest.length < 4 + beNat (rest.take 4)
          · have hs2 : step { idx := pre.length + (4 + beNat (rest.take 4)),
                              positions := ps ++ [pre.length + beNat (rest.take 4)],
                              stage := .arguments n cmd kt } (pre ++ rest) = .incomplete := by
              simp only [step]
              rw [if_pos (by simp; omega)]
            rw [feed_of_step.2.1 hs2] at h
            simp only [Prod.mk.injEq] at h
            exact Or.inl h.1.symm
          · obtain ⟨L, hL⟩ : ∃ L, beNat (rest.take 4) = L := ⟨_, rfl⟩
            rw [hL] at h h4 h1
            have hLlt : L < 2 ^ 32 := by
              have := beNat_lt (rest.take 4)
              rw [hL, List.length_take, Nat.min_eq_left (by omega)] at this
              simpa using this
            obtain ⟨a, rest', hrest, ha⟩ : ∃ a rest', rest = encodeArg a ++ rest' ∧ a.length = L := by
              refine ⟨(rest.drop 4).take L, (rest.drop 4).drop L, ?_, by simp; omega⟩
              have e1 : ((rest.drop 4).take L).length = L := by simp; omega
              rw [encodeArg, e1, ← hL]
              have e2 : (rest.take 4).length = 4 := by simp; omega
              have e3 := beBytes_beNat (rest.take 4)
              rw [e2] at e3
              rw [e3, List.append_assoc, hL, List.take_append_drop, List.take_append_drop]
            have hpre : pre.length + (4 + L) = (pre ++ encodeArg a).length := by
              simp [encodeArg, ha]
            have hbuf : pre ++ rest = (pre ++ encodeArg a) ++ rest' := by rw [hrest]; simp
            rw [hpre, hbuf] at h
            have := ih rest'.length (by rw [← hl, hrest]; simp [encodeArg]; omega) rest' (pre ++ encodeArg a)
              (ps ++ [pre.length + L]) h rfl
            rcases this with hm | ⟨chunks, tail, k1, k2, k3, k4⟩
            · exact Or.inl hm
            · refine Or.inr ⟨a :: chunks, tail, by rw [hrest, k1]; simp, ?_, k3, ?_⟩
              · intro x hx
                rcases List.mem_cons.mp hx with rfl | hx
                · omega
                · exact k2 x hx
              · simp only [List.length_append, List.length_nil, List.length_cons] at k4 ⊢
                rcases k4 with ⟨q1, q2, q3, q4⟩ | ⟨q1, q2, q3⟩
                · exact Or.inl ⟨q1, by omega, by omega, by omega⟩
                · exact Or.inr ⟨by rw [q1, hbuf], q2, by omega⟩

/-- In the argument stage a buffer of the announced shape is answered. -/
theorem feed_arguments_complete (chunks : List Bytes) (tail pre : Bytes) (n : UInt8)
    (cmd : CommandId) (kt : Option KeyType) (hl : ∀ a ∈ chunks, a.length < 2 ^ 32)
    (hp : chunks.length ≤ 256) (hn : n = 0 ∨ chunks.length < n.toNat) (ht : LastReady tail) :
    ∃ c1, feed { idx := pre.length, positions := [], stage := .arguments n cmd kt }
      (pre ++ chunks.flatMap encodeArg ++ tail) =
      if chunks.length = 256 then (.panic, c1)
      else if chunks.length + 1 = n.toNat then
        (.request { buf := pre ++ chunks.flatMap encodeArg ++ tail, commandId := cmd, keyType := kt,
                    positions := [] }, Ctx.new)
      else feed c1 (pre ++ chunks.flatMap encodeArg ++ tail) := by
  obtain ⟨ps, h1, h2⟩ := feed_chunks chunks pre tail [] n cmd kt hl (by simpa using hp) (by simpa using hn)
  have hlen : pre.length + argsSize chunks = (pre ++ chunks.flatMap encodeArg).length := by
    simp [argsSize]
  rw [h2, hlen]
  have hs := step_arguments (pre ++ chunks.flatMap encodeArg) tail ps n cmd kt
  have hps : ps.length = chunks.length := by simpa using h1
  unfold LastReady at ht
  rw [if_neg (by omega), hps] at hs
  by_cases h3 : chunks.length = 256
  · rw [if_pos (by omega)] at hs
    refine ⟨{ idx := (pre ++ chunks.flatMap encodeArg).length, positions := ps, stage := .arguments n cmd kt }, ?_⟩
    rw [if_pos h3]
    exact feed_of_step.2.2.2 hs
  · rw [if_neg (show ¬ 256 ≤ chunks.length by omega)] at hs
    by_cases h4 : chunks.length + 1 = n.toNat
    · rw [if_pos h4] at hs
      refine ⟨Ctx.new, ?_⟩
      rw [if_neg h3, if_pos h4]
      exact feed_of_step.1 _ _ hs
    · refine ⟨{ idx := (pre ++ chunks.flatMap encodeArg).length, positions := ps, stage := .arguments n cmd kt }, ?_⟩
      rw [if_neg h3, if_neg h4]

theorem feed_new_nil : feed Ctx.new [] = (.more, Ctx.new) := rfl

theorem feed_new_bad (b : UInt8) (rest : Bytes) (h : CommandId.ofByte b = none) :
    feed Ctx.new (b :: rest) =
      (.error (if 128 ≤ b.toNat then .keyTypeInvalid else .commandIdInvalid), Ctx.new) := by
  apply feed_of_step.2.2.1
  have hk : 128 ≤ b.toNat → KeyType.ofByte (b >>> 1) = none ∧ b >>> 7 = 1 := by
    revert b
    intro b _
    revert b
    exact forall_u8 (by decide +kernel)
  have hk2 : ¬ 128 ≤ b.toNat → ¬ b >>> 7 = 1 := by
    revert b
    intro b _
    revert b
    exact forall_u8 (by decide +kernel)
  show (if (b :: rest).length < 0 then _ else stageInit Ctx.new (b :: rest)) = _
  rw [if_neg (Nat.not_lt_zero _)]
  simp only [stageInit, List.head?_cons]
  by_cases hb : 128 ≤ b.toNat
  · simp only [if_pos hb, if_pos (hk hb).2, (hk hb).1]
  · simp only [if_neg hb, if_neg (hk2 hb), h]

theorem feed_new_stats (rest : Bytes) :
    feed Ctx.new (CommandId.stats.toByte :: rest) =
      (.request { buf := CommandId.stats.toByte :: rest, commandId := .stats, keyType := none,
                  positions := [] }, Ctx.new) := by
  apply feed_of_step.1
  rfl

theorem feed_new_one (cmd : CommandId) (hc : cmd ≠ .stats) :
    feed Ctx.new [cmd.toByte] =
      (.more, { idx := 1, positions := [], stage := .kind cmd none }) := by
  cases cmd <;> first | exact absurd rfl hc | rfl

theorem ofByte_eq_some {b : UInt8} {c : CommandId} : CommandId.ofByte b = some c ↔ c.toByte = b := by
  constructor
  · intro h
    have : ∀ b : UInt8, ∀ c, CommandId.ofByte b = some c → c.toByte = b := by
      refine forall_u8 ?_
      intro b c
      cases c <;> revert b <;> decide +kernel
    exact this b c h
  · rintro rfl; cases c <;> rfl

end Hop.ReqParser
