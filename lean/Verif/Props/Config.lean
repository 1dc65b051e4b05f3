import Verif.Model.Config
import Verif.Lemmas.Cli

/-! # C91 and C92: where the server listens, and how long -/

namespace Hop

open Spec

/-- A text is the decimal notation of a port: digits, possibly after a `+`, of a number below 65536. -/
def Spec.PortText (s : Cli.Text) (n : Nat) : Prop :=
  n < 65536 ∧ ∃ ds : Cli.Text, ds ≠ [] ∧ (∀ c ∈ ds, c.isDigit = true) ∧ (s = ds ∨ s = '+' :: ds) ∧ n = Nat.ofDigitChars 10 ds 0

theorem ofDigitChars_ge (s : Cli.Text) (acc : Nat) : acc ≤ Nat.ofDigitChars 10 s acc := by
  induction s generalizing acc with
  | nil => simp [Nat.ofDigitChars_nil]
  | cons c s ih =>
    rw [Nat.ofDigitChars_cons]
    exact Nat.le_trans (by omega) (ih _)

theorem portDigits_iff (s : Cli.Text) (acc n : Nat) (ha : acc < 65536) :
    Config.portDigits acc s = some n ↔ (∀ c ∈ s, c.isDigit = true) ∧ n = Nat.ofDigitChars 10 s acc ∧ n < 65536 := by
  induction s generalizing acc with
  | nil =>
    simp only [Config.portDigits, Nat.ofDigitChars_nil, Option.some.injEq, List.not_mem_nil, false_implies, implies_true, true_and]
    constructor
    · rintro rfl; exact ⟨rfl, ha⟩
    · rintro ⟨rfl, -⟩; rfl
  | cons c s ih =>
    simp only [Config.portDigits, Nat.ofDigitChars_cons, List.mem_cons, forall_eq_or_imp]
    cases hd : Cli.digit c with
    | none =>
      have : c.isDigit = false := by
        rw [Bool.eq_false_iff]
        intro h
        have := (digit_iff c _).mpr ⟨h, rfl⟩
        rw [hd] at this
        simp at this
      simp [this]
    | some d =>
      obtain ⟨h1, h2⟩ := (digit_iff c d).mp hd
      subst h2
      have hge := ofDigitChars_ge s (10 * acc + (c.toNat - '0'.toNat))
      have h0 : '0'.toNat = 48 := rfl
      simp only [h1, true_and]
      by_cases hb : 65536 ≤ acc * 10 + (c.toNat - 48)
      · have e : (if 2 ^ 16 ≤ acc * 10 then none else if 2 ^ 16 ≤ acc * 10 + (c.toNat - 48) then none
            else Config.portDigits (acc * 10 + (c.toNat - 48)) s) = none := by
          split
          · rfl
          · rfl
        rw [e]
        constructor
        · intro h; cases h
        · rintro ⟨-, rfl, h⟩; omega
      · rw [if_neg (by omega), if_neg (by omega), ih _ (by omega), Nat.mul_comm acc 10]
        rfl

theorem parsePort_iff (s : Cli.Text) (n : Nat) :
    (∃ p, Config.parsePort s = some p ∧ p.toNat = n) ↔ PortText s n := by
  have nodig : ¬ ('+'.isDigit = true) := by decide
  have main : ∀ ds : Cli.Text, (∃ p, (if ds = [] then none else (Config.portDigits 0 ds).map UInt16.ofNat) = some p ∧ p.toNat = n) ↔
      (n < 65536 ∧ ds ≠ [] ∧ (∀ c ∈ ds, c.isDigit = true) ∧ n = Nat.ofDigitChars 10 ds 0) := by
    intro ds
    by_cases h0 : ds = []
    · simp [h0]
    · rw [if_neg h0]
      constructor
      · rintro ⟨p, hp, rfl⟩
        simp only [Option.map_eq_some_iff] at hp
        obtain ⟨x, hx, rfl⟩ := hp
        obtain ⟨h1, h2, h3⟩ := (portDigits_iff ds 0 x (by omega)).mp hx
        rw [UInt16.toNat_ofNat_of_lt' h3]
        exact ⟨h3, h0, h1, h2⟩
      · rintro ⟨h1, -, h2, h3⟩
        refine ⟨UInt16.ofNat n, ?_, UInt16.toNat_ofNat_of_lt' h1⟩
        rw [(portDigits_iff ds 0 n (by omega)).mpr ⟨h2, h3, h1⟩]
        rfl
  unfold Config.parsePort PortText
  dsimp only
  rw [main]
  split
  · rename_i ds'
    constructor
    · rintro ⟨h1, h2, h3, h4⟩
      exact ⟨h1, ds', h2, h3, Or.inr rfl, h4⟩
    · rintro ⟨h1, ds, h2, h3, h | h, h4⟩
      · subst h; exact absurd (h3 '+' (by simp)) nodig
      · obtain ⟨-, rfl⟩ := List.cons.inj h
        exact ⟨h1, h2, h3, h4⟩
  · rename_i hne
    constructor
    · rintro ⟨h1, h2, h3, h4⟩
      exact ⟨h1, s, h2, h3, Or.inl rfl, h4⟩
    · rintro ⟨h1, ds, h2, h3, h | h, h4⟩
      · subst h; exact ⟨h1, h2, h3, h4⟩
      · exact absurd h (hne ds)

/-- C91: the port is the one named by `PORT` if that is the decimal notation of a port, else 46733. -/
theorem C91_port {α : Type} (fromStr : Cli.Text → Option α) (hostDefault : α) (host port : Option Cli.Text) (n : Nat) :
    (Config.new fromStr hostDefault host port).port.toNat = n ↔
      (∃ s, port = some s ∧ PortText s n) ∨ (n = 46733 ∧ ∀ s, port = some s → ∀ m, ¬ PortText s m) := by
  cases port with
  | none =>
    simp only [Config.new, reduceCtorEq, false_and, exists_false, false_or, false_implies, implies_true, and_true]
    exact ⟨fun h => h.symm, fun h => h.symm⟩
  | some s =>
    simp only [Config.new, Option.some.injEq, exists_eq_left', forall_eq']
    cases hp : Config.parsePort s with
    | none =>
      have hno : ∀ m, ¬ PortText s m := by
        intro m hm
        obtain ⟨p, h, -⟩ := (parsePort_iff s m).mpr hm
        rw [hp] at h
        cases h
      rw [Option.getD_none]
      constructor
      · intro h; exact Or.inr ⟨h.symm, hno⟩
      · rintro (h | ⟨rfl, -⟩)
        · exact absurd h (hno n)
        · rfl
    | some p =>
      rw [Option.getD_some]
      have hpt : PortText s p.toNat := (parsePort_iff s _).mp ⟨p, hp, rfl⟩
      constructor
      · rintro rfl; exact Or.inl hpt
      · rintro (h | ⟨-, h⟩)
        · obtain ⟨p', h1, rfl⟩ := (parsePort_iff s n).mpr h
          rw [hp] at h1
          cases h1
          rfl
        · exact absurd hpt (h _)

/-- C91: the host is the one named by `HOST` if that is an address, else the default. -/
theorem C91_host {α : Type} (fromStr : Cli.Text → Option α) (hostDefault : α) (host port : Option Cli.Text) (a : α) :
    (Config.new fromStr hostDefault host port).host = a ↔
      (∃ s, host = some s ∧ fromStr s = some a) ∨ (a = hostDefault ∧ ∀ s, host = some s → fromStr s = none) := by
  cases host with
  | none => simp [Config.new, eq_comm]
  | some s =>
    simp only [Config.new, Option.some.injEq, exists_eq_left', forall_eq']
    cases h : fromStr s with
    | none => simp [eq_comm]
    | some b => simp

/-- Beside C91. -/
example : (Config.new (fun _ => none) (0, 0, 0, 0) none (some "8080".toList)).port.toNat = 8080 ∧
    (Config.new (fun _ => none) (0, 0, 0, 0) none (some "+00080".toList)).port.toNat = 80 ∧
    (Config.new (fun _ => none) (0, 0, 0, 0) none (some "65536".toList)).port.toNat = 46733 ∧
    (Config.new (fun _ => none) (0, 0, 0, 0) none (some "-1".toList)).port.toNat = 46733 ∧
    (Config.new (fun _ => none) (0, 0, 0, 0) none (some "+".toList)).port.toNat = 46733 ∧
    (Config.new (fun _ => some (127, 0, 0, 1)) (0, 0, 0, 0) (some "127.0.0.1".toList) none).host = (127, 0, 0, 1) := by
  decide +kernel

/-- A connection that comes in while the server runs is handled, whatever happened to earlier ones. -/
def C92_Statement : Prop :=
  ∀ (events : List (Option (Except Unit Nat))) (socket : Nat), some (.ok socket) ∈ events →
    socket ∈ (Config.main true events).spawned

/-- C92 is false: the first connection that cannot be accepted (for example because the process has too many
files open) ends the server. -/
theorem C92_false : ¬ C92_Statement := by
  intro h
  have := h [some (.error ()), some (.ok 7)] 7 (by simp)
  revert this
  decide

theorem accept_returned {σ ε : Type} (events : List (Option (Except ε σ))) (m : Config.Main σ) (h : m.returned ≠ none) :
    events.foldl Config.accept m = m := by
  induction events generalizing m with
  | nil => rfl
  | cons e es ih =>
    have : Config.accept m e = m := by
      unfold Config.accept
      split
      · rfl
      · exact absurd ‹_› h
    rw [List.foldl_cons, this, ih m h]

theorem accept_sockets {σ ε : Type} (sockets : List σ) (m : Config.Main σ) (h : m.returned = none) :
    (sockets.map (fun s => some (.ok s : Except ε σ))).foldl Config.accept m = { m with spawned := m.spawned ++ sockets } := by
  induction sockets generalizing m with
  | nil => simp
  | cons s ss ih =>
    have : Config.accept m (some (.ok s : Except ε σ)) = { m with spawned := m.spawned ++ [s] } := by
      unfold Config.accept
      rw [h]
    rw [List.map_cons, List.foldl_cons, this, ih { m with spawned := m.spawned ++ [s] } h]
    simp

/-- C92, what holds: while every connection is accepted the server runs and handles each once, in order; at
the first that is not it returns, without an error, and handles no other, whatever follows. Missing from
the full statement: connections after a failed one. -/
theorem C92_until_failure_partial {σ ε : Type} (sockets : List σ) :
    Config.main true (sockets.map (fun s => some (.ok s : Except ε σ))) = { spawned := sockets, returned := none } ∧
    ∀ (e : Option (Except ε σ)) (rest : List (Option (Except ε σ))), (∀ s, e ≠ some (.ok s)) →
      Config.main true (sockets.map (fun s => some (.ok s)) ++ e :: rest) = { spawned := sockets, returned := some (.ok ()) } := by
  constructor
  · simp only [Config.main, if_true]
    rw [accept_sockets _ _ rfl]
    simp
  · intro e rest he
    simp only [Config.main, if_true]
    rw [List.foldl_append, accept_sockets _ _ rfl, List.foldl_cons]
    have : Config.accept ({ spawned := sockets, returned := none } : Config.Main σ) e = { spawned := sockets, returned := some (.ok ()) } := by
      unfold Config.accept
      dsimp only
      split
      · exact absurd rfl (he _)
      · rfl
    rw [List.nil_append, this, accept_returned _ _ (by simp)]

/-- C92: if the address cannot be bound, nothing is ever accepted and the server returns an error. -/
theorem C92_unbound {σ ε : Type} (events : List (Option (Except ε σ))) :
    Config.main false events = { spawned := [], returned := some (.error ()) } := rfl

/-- Beside C92. -/
example : (Config.main true [some (.ok 1), some (.ok 2), some (.error "too many open files"), some (.ok 3)] : Config.Main Nat).spawned = [1, 2] := by
  rw [show [some (.ok 1), some (.ok 2), some (.error "too many open files"), some (.ok 3)] =
    [1, 2].map (fun s => some (.ok s : Except String Nat)) ++ some (.error "too many open files") :: [some (.ok 3)] from rfl,
    (C92_until_failure_partial [1, 2]).2 _ _ (by simp)]

end Hop
