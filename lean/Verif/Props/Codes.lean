import Verif.Lemmas.ReqParser

/-! # Wire codes and names: C16 -/

namespace Hop

/-- Spec: the published codes of the commands. -/
def Spec.commandCodes : List (CommandId × Nat × String) :=
  [(.increment, 0, "increment"), (.decrement, 1, "decrement"), (.incrementBy, 2, "increment:by"),
   (.decrementBy, 3, "decrement:by"), (.set, 10, "set"), (.get, 11, "get"), (.delete, 12, "delete"),
   (.exists, 13, "exists"), (.is, 14, "is"), (.rename, 15, "rename"), (.type, 16, "type"),
   (.append, 20, "append"), (.length, 21, "length"), (.keys, 22, "keys"), (.echo, 100, "echo"),
   (.stats, 101, "stats")]

/-- Spec: the published codes of the key types. -/
def Spec.keyTypeCodes : List (KeyType × Nat) :=
  [(.bytes, 0), (.boolean, 1), (.float, 2), (.integer, 3), (.string, 4), (.list, 5), (.map, 6), (.set, 7)]

/-- Spec: the published codes of the response types. -/
def Spec.responseCodes : List (ResponseType × Nat) :=
  [(.boolean, 0), (.bytes, 1), (.float, 2), (.integer, 3), (.list, 4), (.map, 5), (.set, 6), (.string, 7),
   (.parseError, 8), (.dispatchError, 9)]

/-- Spec: the published codes of the dispatch errors. -/
def Spec.dispatchErrorCodes : List (DispatchError × Nat) :=
  [(.argumentRetrieval, 0), (.keyUnspecified, 1), (.keyTypeDifferent, 2), (.keyTypeUnexpected, 3),
   (.preconditionFailed, 4), (.keyNonexistent, 5), (.keyTypeRequired, 6), (.keyTypeInvalid, 7)]

/-- Spec: the published codes of the parse errors. -/
def Spec.parseErrorCodes : List (ReqParseError × Nat) :=
  [(.commandIdInvalid, 0), (.keyTypeInvalid, 1)]

/-- Spec: a pair of conversions realises a code table: the table assigns each item exactly one code, the
conversion to a byte gives that code, and a byte converts to an item exactly if it is the item's code. -/
structure Spec.Realises {α : Type} (table : List (α × Nat)) (toByte : α → UInt8) (ofByte : UInt8 → Option α) :
    Prop where
  total : ∀ a, ∃ n, (a, n) ∈ table
  codes : ∀ a n, (a, n) ∈ table → (toByte a).toNat = n
  back : ∀ b a, ofByte b = some a ↔ (a, b.toNat) ∈ table
  injective : ∀ a a', toByte a = toByte a' → a = a'

theorem realises_of {α : Type} [DecidableEq α] {table : List (α × Nat)} {toByte : α → UInt8}
    {ofByte : UInt8 → Option α} (total : ∀ a, (a, (toByte a).toNat) ∈ table)
    (codes : ∀ e ∈ table, (toByte e.1).toNat = e.2)
    (back : ∀ n : Fin 256, ∀ e ∈ table, ofByte (UInt8.ofFin n) = some e.1 ↔ (e.1, n.val) ∈ table) :
    Spec.Realises table toByte ofByte := by
  have hback : ∀ b a, ofByte b = some a ↔ (a, b.toNat) ∈ table := by
    intro b a
    exact back b.toFin (a, _) (total a)
  refine ⟨fun a => ⟨_, total a⟩, fun a n h => codes (a, n) h, hback, ?_⟩
  intro a a' h
  have h1 := (hback (toByte a) a).mpr (total a)
  have h2 := (hback (toByte a) a').mpr (by rw [h]; exact total a')
  rw [h1] at h2
  exact Option.some.inj h2

/-- C16, commands. -/
theorem C16_commands :
    Spec.Realises (Spec.commandCodes.map fun e => (e.1, e.2.1)) CommandId.toByte CommandId.ofByte :=
  realises_of (by intro a; cases a <;> decide) (by decide) (by decide +kernel)

/-- C16, key types. -/
theorem C16_key_types : Spec.Realises Spec.keyTypeCodes KeyType.toByte KeyType.ofByte :=
  realises_of (by intro a; cases a <;> decide) (by decide) (by decide +kernel)

/-- C16, response types. -/
theorem C16_response_types : Spec.Realises Spec.responseCodes ResponseType.toByte ResponseType.ofByte :=
  realises_of (by intro a; cases a <;> decide) (by decide) (by decide +kernel)

/-- C16, dispatch errors. -/
theorem C16_dispatch_errors :
    Spec.Realises Spec.dispatchErrorCodes DispatchError.toByte DispatchError.ofByte :=
  realises_of (by intro a; cases a <;> decide) (by decide) (by decide +kernel)

/-- C16, parse errors. -/
theorem C16_parse_errors : Spec.Realises Spec.parseErrorCodes ReqParseError.toByte ReqParseError.ofByte :=
  realises_of (by intro a; cases a <;> decide) (by decide) (by decide +kernel)

theorem ite_some_elim {p : Prop} [Decidable p] {α : Type} {x : α} {r : Option α} {y : α} {q : Prop}
    (h1 : p → x = y → q) (h2 : r = some y → q) : (if p then some x else r) = some y → q := by
  split
  · intro h; exact h1 ‹_› (Option.some.inj h)
  · exact h2

/-- C16, names: each command has its published name; a text is accepted exactly if it is the name of a
command, and then as that command. -/
theorem C16_names :
    (∀ c, (c, c.toByte.toNat, c.name) ∈ Spec.commandCodes) ∧
    ∀ (s : String) (c : CommandId), CommandId.ofName s = some c ↔ ∃ n, (c, n, s) ∈ Spec.commandCodes := by
  constructor
  · intro c; cases c <;> decide
  · intro s c
    constructor
    · intro h
      have hn : s = c.name := by
        revert h
        unfold CommandId.ofName
        iterate 16
          refine ite_some_elim ?_ ?_
          · rintro rfl rfl
            rfl
        rintro ⟨⟩
      subst hn
      exact ⟨c.toByte.toNat, by cases c <;> decide⟩
    · rintro ⟨n, h⟩
      simp only [Spec.commandCodes, List.mem_cons, Prod.mk.injEq, List.not_mem_nil, or_false] at h
      rcases h with h | h | h | h | h | h | h | h | h | h | h | h | h | h | h | h <;>
        obtain ⟨rfl, -, rfl⟩ := h <;> decide

/-- C16: the wire code of a command never has its highest bit set, which the request layout uses as the
key type marker. -/
theorem C16_command_codes_below_128 (c : CommandId) : c.toByte.toNat < 128 := by cases c <;> decide

example : CommandId.ofByte 15 = some .rename ∧ CommandId.ofByte 4 = none ∧
    CommandId.ofName "decrement:by" = some .decrementBy ∧ CommandId.ofName "Set" = none := by decide

end Hop
