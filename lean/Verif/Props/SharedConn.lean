import Verif.Spec.SharedConn
import Verif.Props.Locks
import Verif.Props.Remote

/-! # C140, C141: one connection used by several tasks -/

namespace Hop
open Spec Client.Server

/-- What has been written consists of parts of requests. -/
structure Parted (reqs : List Bytes) (s : Shared) (parts : List (Nat × Bytes)) : Prop where
  wire : s.wire = (parts.map Prod.snd).flatten
  once : (parts.map Prod.fst).Nodup
  prefixes : ∀ e ∈ parts, ∃ r, reqs[e.1]? = some r ∧ e.2 <+: r
  length : s.tasks.length = reqs.length
  waiting : ∀ i, s.tasks[i]? = some .waiting → i ∉ parts.map Prod.fst
  writing : ∀ (i : Nat) rest, s.tasks[i]? = some (.writing rest) → ∃ init sent r, parts = init ++ [(i, sent)] ∧ reqs[i]? = some r ∧ sent ++ rest = r
  done : ∀ i, s.tasks[i]? = some .written ∨ s.tasks[i]? = some (.returned (.err .connectionClosed)) → ∃ r, reqs[i]? = some r ∧ (i, r) ∈ parts
  results : ∀ (i : Nat) r, s.tasks[i]? = some (.returned r) → r = .err .connectionClosed ∨ r = .err .writingMessage

theorem waitLoop_closed (m : Mode) (fuel : Nat) (incoming : Bytes) : waitLoop m (fuel + 1) .new [] incoming = .err .connectionClosed := by
  simp [waitLoop, readExact]

theorem Parted.sole {reqs : List Bytes} {s : Shared} {parts : List (Nat × Bytes)} (h : Parted reqs s parts) {i j : Nat} {a b : Bytes}
    (hi : s.tasks[i]? = some (.writing a)) (hj : s.tasks[j]? = some (.writing b)) : i = j := by
  obtain ⟨init, sent, r, e, -, -⟩ := h.writing i a hi
  obtain ⟨init', sent', r', e', -, -⟩ := h.writing j b hj
  rw [e] at e'
  have := List.append_inj_right' e' rfl
  simp only [List.cons.injEq, Prod.mk.injEq, and_true] at this
  exact this.1

theorem Shared.free_iff {s : Shared} : s.free = true ↔ ∀ (i : Nat) rest, s.tasks[i]? ≠ some (.writing rest) := by
  simp only [Shared.free, List.all_eq_true]
  constructor
  · intro h i rest hi
    have := h _ (List.mem_of_getElem? hi)
    simp at this
  · intro h t ht
    obtain ⟨i, hi⟩ := List.getElem?_of_mem ht
    cases t with
    | writing rest => exact absurd hi (h i rest)
    | _ => rfl

/-- The thread's stage changes to one about which less is known. -/
theorem Parted.set {reqs : List Bytes} {s : Shared} {parts : List (Nat × Bytes)} (h : Parted reqs s parts) {i : Nat} {t' : Task}
    (hw : t' ≠ .waiting) (hwr : ∀ rest, t' ≠ .writing rest)
    (hd : t' = .written ∨ t' = .returned (.err .connectionClosed) → ∃ r, reqs[i]? = some r ∧ (i, r) ∈ parts)
    (hr : ∀ r, t' = .returned r → r = .err .connectionClosed ∨ r = .err .writingMessage) :
    Parted reqs { s with tasks := s.tasks.set i t' } parts := by
  refine ⟨h.wire, h.once, h.prefixes, by simp [h.length], ?_, ?_, ?_, ?_⟩
  · intro j hj
    rcases getElem?_set_cases hj with ⟨-, e⟩ | ⟨-, hj⟩
    · exact absurd e.symm hw
    · exact h.waiting j hj
  · intro j rest hj
    rcases getElem?_set_cases hj with ⟨-, e⟩ | ⟨-, hj⟩
    · exact absurd e.symm (hwr rest)
    · exact h.writing j rest hj
  · intro j hj
    rcases hj with hj | hj
    · rcases getElem?_set_cases hj with ⟨rfl, e⟩ | ⟨-, hj⟩
      · exact hd (.inl e.symm)
      · exact h.done j (.inl hj)
    · rcases getElem?_set_cases hj with ⟨rfl, e⟩ | ⟨-, hj⟩
      · exact hd (.inr e.symm)
      · exact h.done j (.inr hj)
  · intro j r hj
    rcases getElem?_set_cases hj with ⟨rfl, e⟩ | ⟨-, hj⟩
    · exact hr r e.symm
    · exact h.results j r hj

theorem Parted.step {m : Mode} {fuel : Nat} {reqs : List Bytes} {s : Shared} {parts : List (Nat × Bytes)} (h : Parted reqs s parts)
    (x : Happening) : ∃ parts', Parted reqs (s.step m (fuel + 1) reqs x) parts' := by
  cases x with
  | drop i =>
    simp only [Shared.step]
    split
    · exact ⟨_, h⟩
    · exact ⟨_, h.set (by simp) (by simp) (by simp) (by simp)⟩
    · exact ⟨_, h⟩
  | fail i =>
    simp only [Shared.step]
    split
    · exact ⟨_, h.set (by simp) (by simp) (by simp) (fun r e => by cases e; exact .inr rfl)⟩
    · exact ⟨_, h⟩
  | go i n =>
    simp only [Shared.step]
    split
    · rename_i r hi hr
      split
      · rename_i hf
        have hno := Shared.free_iff.mp hf
        refine ⟨parts ++ [(i, [])], ?_, ?_, ?_, by simp [h.length], ?_, ?_, ?_, ?_⟩
        · simp [h.wire]
        · rw [List.map_append, List.nodup_append]
          refine ⟨h.once, by simp, ?_⟩
          intro a ha b hb
          simp only [List.map_cons, List.map_nil, List.mem_singleton] at hb
          subst hb
          rintro rfl
          exact h.waiting _ hi ha
        · intro e he
          rcases List.mem_append.mp he with he | he
          · exact h.prefixes e he
          · obtain rfl := List.mem_singleton.mp he
            exact ⟨r, hr, List.nil_prefix⟩
        · intro j hj
          rcases getElem?_set_cases hj with ⟨-, e⟩ | ⟨hne, hj⟩
          · cases e
          · rw [List.map_append, List.mem_append, not_or]
            refine ⟨h.waiting j hj, ?_⟩
            simp only [List.map_cons, List.map_nil, List.mem_singleton]
            exact hne
        · intro j rest hj
          rcases getElem?_set_cases hj with ⟨rfl, e⟩ | ⟨-, hj⟩
          · cases e; exact ⟨parts, [], r, rfl, hr, rfl⟩
          · exact absurd hj (hno j rest)
        · intro j hj
          have : s.tasks[j]? = some .written ∨ s.tasks[j]? = some (.returned (.err .connectionClosed)) := by
            rcases hj with hj | hj
            · rcases getElem?_set_cases hj with ⟨rfl, e⟩ | ⟨-, hj⟩
              · cases e
              · exact .inl hj
            · rcases getElem?_set_cases hj with ⟨rfl, e⟩ | ⟨-, hj⟩
              · cases e
              · exact .inr hj
          obtain ⟨r', h1, h2⟩ := h.done j this
          exact ⟨r', h1, List.mem_append_left _ h2⟩
        · intro j r' hj
          rcases getElem?_set_cases hj with ⟨rfl, e⟩ | ⟨-, hj⟩
          · cases e
          · exact h.results j r' hj
      · exact ⟨_, h⟩
    · rename_i rest hi
      obtain ⟨init, sent, r, e, hr, hsr⟩ := h.writing i rest hi
      have hsplit : rest.take n ++ rest.drop n = rest := List.take_append_drop n rest
      refine ⟨init ++ [(i, sent ++ rest.take n)], ?_, ?_, ?_, by simp [h.length], ?_, ?_, ?_, ?_⟩
      · show s.wire ++ rest.take n = _
        rw [h.wire, e]; simp
      · have := h.once; rw [e] at this; simpa using this
      · intro x hx
        rcases List.mem_append.mp hx with hx | hx
        · exact h.prefixes x (by rw [e]; exact List.mem_append_left _ hx)
        · obtain rfl := List.mem_singleton.mp hx
          refine ⟨r, hr, ⟨rest.drop n, ?_⟩⟩
          rw [← hsr, List.append_assoc, hsplit]
      · intro j hj
        rcases getElem?_set_cases hj with ⟨-, e'⟩ | ⟨-, hj⟩
        · split at e' <;> cases e'
        · have := h.waiting j hj; rw [e] at this; simpa using this
      · intro j rest' hj
        rcases getElem?_set_cases hj with ⟨rfl, e'⟩ | ⟨hne, hj⟩
        · split at e'
          · cases e'
          · cases e'
            exact ⟨init, _, r, rfl, hr, by rw [List.append_assoc, hsplit, hsr]⟩
        · exact absurd (h.sole hj hi) hne
      · intro j hj
        by_cases hji : j = i
        · subst hji
          have hw : (if rest.drop n = [] then Task.written else .writing (rest.drop n)) = .written ∨
              (if rest.drop n = [] then Task.written else .writing (rest.drop n)) = .returned (.err .connectionClosed) := by
            rcases hj with hj | hj
            · rcases getElem?_set_cases hj with ⟨-, e'⟩ | ⟨hne, -⟩
              · exact .inl e'.symm
              · exact absurd rfl hne
            · rcases getElem?_set_cases hj with ⟨-, e'⟩ | ⟨hne, -⟩
              · exact .inr e'.symm
              · exact absurd rfl hne
          by_cases hd : rest.drop n = []
          · refine ⟨r, hr, ?_⟩
            rw [hd, List.append_nil] at hsplit
            rw [hsplit, hsr]; simp
          · rw [if_neg hd] at hw; rcases hw with hw | hw <;> cases hw
        · have : s.tasks[j]? = some .written ∨ s.tasks[j]? = some (.returned (.err .connectionClosed)) := by
            rcases hj with hj | hj
            · rcases getElem?_set_cases hj with ⟨hh, -⟩ | ⟨-, hj⟩
              · exact absurd hh hji
              · exact .inl hj
            · rcases getElem?_set_cases hj with ⟨hh, -⟩ | ⟨-, hj⟩
              · exact absurd hh hji
              · exact .inr hj
          obtain ⟨r', h1, h2⟩ := h.done j this
          refine ⟨r', h1, ?_⟩
          rw [e] at h2
          rcases List.mem_append.mp h2 with h2 | h2
          · exact List.mem_append_left _ h2
          · simp only [List.mem_singleton, Prod.mk.injEq] at h2
            exact absurd h2.1 hji
      · intro j r' hj
        rcases getElem?_set_cases hj with ⟨rfl, e'⟩ | ⟨-, hj⟩
        · split at e' <;> cases e'
        · exact h.results j r' hj
    · rename_i hi
      refine ⟨_, h.set (by simp) (by simp) (fun _ => h.done i (.inl hi)) ?_⟩
      intro r e
      rw [waitLoop_closed] at e
      cases e; exact .inl rfl
    · exact ⟨_, h⟩

theorem Parted.exec {m : Mode} {fuel : Nat} {reqs : List Bytes} {s : Shared} {parts : List (Nat × Bytes)} (h : Parted reqs s parts)
    (hs : List Happening) : ∃ parts', Parted reqs (s.exec m (fuel + 1) reqs hs) parts' := by
  induction hs generalizing s parts with
  | nil => exact ⟨_, h⟩
  | cons x xs ih =>
    obtain ⟨parts', h'⟩ := h.step (m := m) (fuel := fuel) x
    exact ih h'

theorem Parted.start (reqs : List Bytes) (incoming : Bytes) : Parted reqs (sharing reqs incoming) [] := by
  have hw : ∀ (i : Nat) t, (sharing reqs incoming).tasks[i]? = some t → t = .waiting := by
    intro i t ht
    simp only [sharing, List.getElem?_map, Option.map_eq_some_iff] at ht
    obtain ⟨-, -, rfl⟩ := ht
    rfl
  refine ⟨rfl, .nil, by simp, by simp [sharing], by simp, ?_, ?_, ?_⟩
  · intro i rest hi; exact absurd (hw i _ hi) (by simp)
  · intro i hi; rcases hi with hi | hi <;> exact absurd (hw i _ hi) (by simp)
  · intro i r hi; exact absurd (hw i _ hi) (by simp)

/-- Tasks that were not dropped and did not fail. -/
theorem smooth_tasks {m : Mode} {fuel : Nat} {reqs : List Bytes} {hs : List Happening} (hsm : Smooth hs) : ∀ (s : Shared),
    (∀ t ∈ s.tasks, t ≠ .dropped ∧ t ≠ .returned (.err .writingMessage)) →
    ∀ t ∈ (s.exec m (fuel + 1) reqs hs).tasks, t ≠ .dropped ∧ t ≠ .returned (.err .writingMessage) := by
  induction hs with
  | nil => intro s h; exact h
  | cons x xs ih =>
    intro s h
    refine ih (fun y hy => hsm y (List.mem_cons_of_mem _ hy)) _ ?_
    obtain ⟨i, n, rfl⟩ := hsm x List.mem_cons_self
    simp only [Shared.step]
    have put : ∀ t', t' ≠ .dropped ∧ t' ≠ .returned (.err .writingMessage) → ∀ t ∈ s.tasks.set i t',
        t ≠ .dropped ∧ t ≠ .returned (.err .writingMessage) := by
      intro t' ht' t ht
      rcases List.mem_or_eq_of_mem_set ht with ht | rfl
      · exact h t ht
      · exact ht'
    split
    · split
      · exact put _ (by simp)
      · exact h
    · refine put _ ?_
      split <;> simp
    · rw [waitLoop_closed]; exact put _ (by simp)
    · exact h

/-- C140. Any number of tasks make calls on one connection at a time. As long as the connection does not fail and no task
is dropped, what is written to it is, at every moment, a sequence of whole requests, each at most once, followed by the
beginning of the one request that is being written; the requests of the tasks that have written theirs are among them,
those of tasks that wait are not. All calls that return report that the connection was closed. -/
theorem C140_whole_requests (m : Mode) (fuel : Nat) (reqs : List Bytes) (incoming : Bytes) (hs : List Happening) (hsm : Smooth hs) :
    ∃ (order : List Nat) (begun : Bytes),
      ((sharing reqs incoming).exec m (fuel + 1) reqs hs).wire = (order.flatMap fun i => (reqs[i]?).getD []) ++ begun ∧ order.Nodup ∧
      (∀ i : Nat, i ∈ order ↔ ∃ t, ((sharing reqs incoming).exec m (fuel + 1) reqs hs).tasks[i]? = some t ∧ Finished t) ∧
      (begun = [] ∨ ∃ (i : Nat) (rest r : Bytes), ((sharing reqs incoming).exec m (fuel + 1) reqs hs).tasks[i]? = some (.writing rest) ∧
        reqs[i]? = some r ∧ begun ++ rest = r) ∧
      ∀ (i : Nat) r, ((sharing reqs incoming).exec m (fuel + 1) reqs hs).tasks[i]? = some (.returned r) → r = .err .connectionClosed := by
  obtain ⟨parts, h⟩ := (Parted.start reqs incoming).exec (m := m) (fuel := fuel) hs
  have hsm' := smooth_tasks (m := m) (fuel := fuel) (reqs := reqs) hsm (sharing reqs incoming) (by
    intro t ht
    simp only [sharing, List.mem_map] at ht
    obtain ⟨-, -, rfl⟩ := ht
    simp)
  generalize (sharing reqs incoming).exec m (fuel + 1) reqs hs = s at *
  have hres : ∀ (i : Nat) r, s.tasks[i]? = some (.returned r) → r = .err .connectionClosed := by
    intro i r hi
    rcases h.results i r hi with e | e
    · exact e
    · subst e; exact absurd rfl (hsm' _ (List.mem_of_getElem? hi)).2
  have hdone : ∀ (i : Nat) t, s.tasks[i]? = some t → Finished t → ∃ r, reqs[i]? = some r ∧ (i, r) ∈ parts := by
    intro i t hi ht
    rcases ht with rfl | ⟨r, rfl⟩
    · exact h.done i (.inl hi)
    · exact h.done i (.inr (by rw [← hres i r hi]; exact hi))
  have huniq : ∀ {i : Nat} {a b : Bytes}, (i, a) ∈ parts → (i, b) ∈ parts → a = b := by
    intro i a b ha hb
    have := h.once
    clear h hdone
    induction parts with
    | nil => cases ha
    | cons e es ih =>
      rw [List.map_cons, List.nodup_cons] at this
      rcases List.mem_cons.mp ha with rfl | ha <;> rcases List.mem_cons.mp hb with hb | hb
      · cases hb; rfl
      · exact absurd (List.mem_map_of_mem (f := Prod.fst) hb) this.1
      · subst hb; exact absurd (List.mem_map_of_mem (f := Prod.fst) ‹(i, a) ∈ es›) this.1
      · exact ih ha hb this.2
  have hpart : ∀ e ∈ parts, (∃ t, s.tasks[e.1]? = some t ∧ Finished t ∧ reqs[e.1]? = some e.2) ∨ ∃ rest, s.tasks[e.1]? = some (.writing rest) := by
    intro e he
    obtain ⟨r, hr, -⟩ := h.prefixes e he
    have hlt : e.1 < s.tasks.length := by rw [h.length]; exact (List.getElem?_eq_some_iff.mp hr).1
    have hget : s.tasks[e.1]? = some s.tasks[e.1] := List.getElem?_eq_getElem hlt
    have hmem := hsm' _ (List.getElem_mem hlt)
    have fin : ∀ t, s.tasks[e.1]? = some t → Finished t → reqs[e.1]? = some e.2 := by
      intro t hi ht
      obtain ⟨r, h1, h2⟩ := hdone e.1 t hi ht
      rw [h1, huniq h2 he]
    cases ht : s.tasks[e.1] with
    | waiting => rw [ht] at hget; exact absurd (List.mem_map_of_mem he) (h.waiting _ hget)
    | writing rest => exact .inr ⟨rest, by rw [hget, ht]⟩
    | written =>
      rw [ht] at hget
      exact .inl ⟨_, hget, .inl rfl, fin _ hget (.inl rfl)⟩
    | returned r =>
      rw [ht] at hget
      exact .inl ⟨_, hget, .inr ⟨r, rfl⟩, fin _ hget (.inr ⟨r, rfl⟩)⟩
    | dropped => rw [ht] at hmem; exact absurd rfl hmem.1
  have hflat : ∀ (es : List (Nat × Bytes)), (∀ e ∈ es, reqs[e.1]? = some e.2) →
      (es.map Prod.snd).flatten = (es.map Prod.fst).flatMap fun i => (reqs[i]?).getD [] := by
    intro es
    induction es with
    | nil => intro _; rfl
    | cons e es ih =>
      intro he
      simp only [List.map_cons, List.flatten_cons, List.flatMap_cons, he e List.mem_cons_self, Option.getD_some]
      rw [ih fun x hx => he x (List.mem_cons_of_mem _ hx)]
  by_cases hw : ∃ (i : Nat) (rest : Bytes), s.tasks[i]? = some (.writing rest)
  · obtain ⟨i, rest, hi⟩ := hw
    obtain ⟨init, sent, r, rfl, hr, hsr⟩ := h.writing i rest hi
    have hnd := h.once
    rw [List.map_append, List.nodup_append] at hnd
    have hinit : ∀ e ∈ init, ∃ t, s.tasks[e.1]? = some t ∧ Finished t ∧ reqs[e.1]? = some e.2 := by
      intro e he
      rcases hpart e (List.mem_append_left _ he) with h1 | ⟨rest', h1⟩
      · exact h1
      · have := h.sole h1 hi
        exact absurd this (hnd.2.2 _ (List.mem_map_of_mem he) _ (by simp))
    refine ⟨init.map Prod.fst, sent, ?_, hnd.1, ?_, .inr ⟨i, rest, r, hi, hr, hsr⟩, hres⟩
    · rw [h.wire, List.map_append, List.flatten_append, hflat init (fun e he => by obtain ⟨-, -, -, h3⟩ := hinit e he; exact h3)]
      simp
    · intro j
      constructor
      · intro hj
        obtain ⟨e, he, rfl⟩ := List.mem_map.mp hj
        obtain ⟨t, h1, h2, -⟩ := hinit e he
        exact ⟨t, h1, h2⟩
      · rintro ⟨t, h1, h2⟩
        obtain ⟨r', h3, h4⟩ := hdone j t h1 h2
        rcases List.mem_append.mp h4 with h4 | h4
        · exact List.mem_map_of_mem (f := Prod.fst) h4
        · simp only [List.mem_singleton, Prod.mk.injEq] at h4
          obtain ⟨rfl, -⟩ := h4
          rw [hi] at h1; cases h1
          rcases h2 with h2 | ⟨_, h2⟩ <;> cases h2
  · have hall : ∀ e ∈ parts, ∃ t, s.tasks[e.1]? = some t ∧ Finished t ∧ reqs[e.1]? = some e.2 := by
      intro e he
      rcases hpart e he with h1 | ⟨rest', h1⟩
      · exact h1
      · exact absurd ⟨_, _, h1⟩ hw
    refine ⟨parts.map Prod.fst, [], ?_, h.once, ?_, .inl rfl, hres⟩
    · rw [h.wire, hflat parts (fun e he => by obtain ⟨-, -, -, h3⟩ := hall e he; exact h3), List.append_nil]
    · intro j
      constructor
      · intro hj
        obtain ⟨e, he, rfl⟩ := List.mem_map.mp hj
        obtain ⟨t, h1, h2, -⟩ := hall e he
        exact ⟨t, h1, h2⟩
      · rintro ⟨t, h1, h2⟩
        obtain ⟨r', -, h4⟩ := hdone j t h1 h2
        exact List.mem_map_of_mem (f := Prod.fst) h4

/-- C141 as stated: also if calls are dropped or the connection fails for a while, what is written is whole requests,
followed by the beginning of one. -/
def C141_Statement : Prop :=
  ∀ (m : Mode) (fuel : Nat) (reqs : List Bytes) (incoming : Bytes) (hs : List Happening), ∃ (order : List Nat) (begun : Bytes),
    ((sharing reqs incoming).exec m (fuel + 1) reqs hs).wire = (order.flatMap fun i => (reqs[i]?).getD []) ++ begun ∧
    (begun = [] ∨ ∃ r ∈ reqs, begun <+: r)

/-- C141, the part that holds: what is written consists of beginnings of requests, at most one of each; that of a call
that reports that the connection was closed is whole, and of a call that has not begun to write there is nothing. Missing:
the beginnings of requests whose calls were dropped, or failed, while they wrote need not be whole. -/
theorem C141_beginnings_partial (m : Mode) (fuel : Nat) (reqs : List Bytes) (incoming : Bytes) (hs : List Happening) :
    ∃ parts : List (Nat × Bytes), ((sharing reqs incoming).exec m (fuel + 1) reqs hs).wire = (parts.map Prod.snd).flatten ∧
      (parts.map Prod.fst).Nodup ∧ (∀ e ∈ parts, ∃ r, reqs[e.1]? = some r ∧ e.2 <+: r) ∧
      (∀ i : Nat, ((sharing reqs incoming).exec m (fuel + 1) reqs hs).tasks[i]? = some .waiting → i ∉ parts.map Prod.fst) ∧
      (∀ i : Nat, ((sharing reqs incoming).exec m (fuel + 1) reqs hs).tasks[i]? = some (.returned (.err .connectionClosed)) →
        ∃ r, reqs[i]? = some r ∧ (i, r) ∈ parts) ∧
      ∀ (i : Nat) o, ((sharing reqs incoming).exec m (fuel + 1) reqs hs).tasks[i]? = some (.returned o) →
        o = .err .connectionClosed ∨ o = .err .writingMessage := by
  obtain ⟨parts, h⟩ := (Parted.start reqs incoming).exec (m := m) (fuel := fuel) hs
  exact ⟨parts, h.wire, h.once, h.prefixes, h.waiting, fun i hi => h.done i (.inr hi), h.results⟩

/-- C141 is false: the call that increments key `a` is dropped when five bytes of its request are written, and the request
that increments key `b` follows. -/
theorem C141_false : ¬ C141_Statement := by
  intro h
  obtain ⟨order, begun, hw, hb⟩ := h .debug 0 [[0, 1, 0, 0, 0, 1, 97], [0, 1, 0, 0, 0, 1, 98]] []
    [.go 0 0, .go 0 5, .drop 0, .go 1 0, .go 1 7]
  have e : ((sharing [[0, 1, 0, 0, 0, 1, 97], [0, 1, 0, 0, 0, 1, 98]] []).exec .debug 1 [[0, 1, 0, 0, 0, 1, 97], [0, 1, 0, 0, 0, 1, 98]]
    [.go 0 0, .go 0 5, .drop 0, .go 1 0, .go 1 7]).wire = [0, 1, 0, 0, 0, 0, 1, 0, 0, 0, 1, 98] := by decide
  rw [e] at hw
  have hbl : begun.length ≤ 7 := by
    rcases hb with rfl | ⟨r, hr, hp⟩
    · simp
    · have := hp.length_le
      simp only [List.mem_cons, List.not_mem_nil, or_false] at hr
      rcases hr with rfl | rfl <;> simpa using this
  -- the first request of the order that exists begins the wire
  have key : ∀ (l : List Nat) (w : Bytes), w.length ≥ 12 → w = (l.flatMap fun i => (([[0, 1, 0, 0, 0, 1, 97], [0, 1, 0, 0, 0, 1, 98]] : List Bytes)[i]?).getD []) ++ begun →
      w.take 6 = [0, 1, 0, 0, 0, 1] := by
    intro l
    induction l with
    | nil =>
      intro w hlen hw
      rw [hw] at hlen
      simp only [List.flatMap_nil, List.nil_append] at hlen
      omega
    | cons i l ih =>
      intro w hlen hw
      match i with
      | 0 => rw [hw]; rfl
      | 1 => rw [hw]; rfl
      | i + 2 => exact ih w hlen (by rw [hw]; rfl)
  have := key order _ (by decide) hw
  revert this
  decide

/-- Two tasks whose writing is interrupted; both requests arrive whole. -/
example : ((sharing [[1, 2, 3], [4, 5]] []).exec .debug 1 [[1, 2, 3], [4, 5]]
      [.go 0 0, .go 0 1, .go 1 0, .go 0 1, .go 1 9, .go 0 1, .go 1 0, .go 1 1, .go 0 0, .go 1 1, .go 1 0]).wire = [1, 2, 3, 4, 5] ∧
    Smooth [.go 0 0, .go 0 1, .go 1 0, .go 0 1, .go 1 9, .go 0 1, .go 1 0, .go 1 1, .go 0 0, .go 1 1, .go 1 0] := by
  refine ⟨by decide, ?_⟩
  intro h hh
  simp only [List.mem_cons, List.not_mem_nil, or_false] at hh
  rcases hh with rfl | rfl | rfl | rfl | rfl | rfl | rfl | rfl | rfl | rfl | rfl <;> exact ⟨_, _, rfl⟩

/-- Whatever two tasks that share a connection do, it carries whole requests and at most one that is begun. -/
example (m : Mode) (fuel : Nat) (incoming : Bytes) (hs : List Happening) (h : Smooth hs) :
    ∃ (order : List Nat) (begun : Bytes), order.Nodup ∧ ((sharing [[1, 2, 3], [4, 5]] incoming).exec m (fuel + 1) [[1, 2, 3], [4, 5]] hs).wire =
      (order.flatMap fun i => ([[1, 2, 3], [4, 5]][i]?).getD []) ++ begun := by
  obtain ⟨order, begun, h1, h2, -⟩ := C140_whole_requests m fuel [[1, 2, 3], [4, 5]] incoming hs h
  exact ⟨order, begun, h2, h1⟩

end Hop
