import Verif.Lemmas.Cli
import Verif.Props.Builder

/-! # Lines given to the command line interface -/

namespace Hop

open Spec
open Hop.Cli (Text Std ParseError)

/-- A standard library for the examples: invalid text becomes empty, and no floats are known. -/
def plainStd : Std where
  parseFloat _ := none
  showFloat _ := []
  lossy b := (fromUtf8 b).getD []
  lossy_text s := by simp [fromUtf8_strBytes]

/-! ## C45 CLI input becomes the request it spells -/

/-- C45 in full: every line made of a command, a type and words that spell arguments. -/
def C45_Statement : Prop :=
  ∀ (m : Mode) (std : Std) (c : CommandId) (t : KeyType) (w : Text) (words : List Text) (args : List Bytes),
    Head c t w → (∀ x ∈ words, x ≠ [] ∧ ' ' ∉ x) → Arguments std c t words args →
    ∃ r, Cli.parse m std (lineOf w words) = .ok r ∧ Views r c (some t) args

/-- The part of `parse` after the line has been split and the command recognised. -/
theorem parse_line (m : Mode) (std : Std) {c : CommandId} {t : KeyType} {w : Text} (words : List Text)
    (hh : Head c t w) (hw : ∀ x ∈ words, ' ' ∉ x) :
    Cli.parse m std (lineOf w words) =
      match words with
      | [] => .ok (Builder.newWithKeyType c (some t)).intoRequest
      | _ =>
        match Cli.inputArgs std words c t with
        | .error e => .err e
        | .ok args =>
          match (Builder.newWithKeyType c (some t)).bytesAll m args with
          | (.ok (), b') => .ok b'.intoRequest
          | (.err e, _) => .err (.buildingRequest e)
          | (.panic, _) => .panic
          | (.stuck, _) => .stuck := by
  obtain ⟨h1, h2⟩ := head_plain hh
  obtain ⟨kt, h3, h4⟩ := (command_iff w c t).mpr hh
  unfold Cli.parse
  rw [splitOn_lineOf w words h1 hw]
  cases w with
  | nil => exact absurd rfl h2
  | cons a w =>
    simp only [h3, h4]
    cases words <;> rfl

theorem parse_arguments (m : Mode) (std : Std) {c : CommandId} {t : KeyType} {w : Text} {words : List Text}
    {args : List Bytes} (hh : Head c t w) (hw : ∀ x ∈ words, ' ' ∉ x) (ha : Arguments std c t words args) :
    Cli.parse m std (lineOf w words) =
      match (Builder.newWithKeyType c (some t)).bytesAll m args with
      | (.ok (), b') => .ok b'.intoRequest
      | (.err e, _) => .err (.buildingRequest e)
      | (.panic, _) => .panic
      | (.stuck, _) => .stuck := by
  rw [parse_line m std words hh hw]
  cases words with
  | nil =>
    rcases ha with ⟨-, rfl⟩ | ⟨ks, vs, bs, h1, -, h3, -, rfl⟩
    · rfl
    · obtain ⟨rfl, rfl⟩ := List.append_eq_nil_iff.mp h1.symm
      cases h3
      rfl
  | cons x words =>
    simp only [inputArgs_ok (by simp) ha]

/-- C45, without the two exceptions: a line made of a command name, optionally a type name, and non-empty
words that spell at most 255 arguments is parsed to the request with that command, that type (`bytes` if
none is named) and those arguments in that order: keys as they are written, then booleans as one byte,
integers and floats as 8 bytes, everything else as it is written. Missing: `stats` with arguments, which are
lost (`C45_false`), and lines with more than 255 arguments, which panic in debug builds. -/
theorem C45_parsed_partial (m : Mode) (std : Std) (c : CommandId) (t : KeyType) (w : Text) (words : List Text)
    (args : List Bytes) (hh : Head c t w) (hw : ∀ x ∈ words, x ≠ [] ∧ ' ' ∉ x) (ha : Arguments std c t words args)
    (hn : args.length ≤ 255) (hs : c ≠ .stats ∨ args = []) :
    ∃ r, Cli.parse m std (lineOf w words) = .ok r ∧ Views r c (some t) args := by
  obtain ⟨b, hb, hv, -⟩ := C01_built_request_args m c (some t) args hs hn
    (arguments_ne_nil ha (fun x hx => (hw x hx).1))
  refine ⟨b.intoRequest, ?_, hv⟩
  rw [parse_arguments m std hh (fun x hx => (hw x hx).2) ha, hb]

/-- C45 is false as stated: in `stats a` the argument is lost. -/
theorem C45_false : ¬ C45_Statement := by
  intro h
  obtain ⟨r, hr, hv⟩ := h .release plainStd .stats .bytes "stats".toList ["a".toList] [strBytes "a".toList]
    (.inl ⟨rfl, rfl⟩) (by decide)
    (.inr ⟨[], ["a".toList], [strBytes "a".toList], rfl, rfl, .cons rfl .nil, by simp, rfl⟩)
  rw [parse_arguments .release plainStd (c := .stats) (t := .bytes) (w := "stats".toList) (words := ["a".toList])
    (args := [strBytes "a".toList]) (.inl ⟨rfl, rfl⟩) (by decide)
    (.inr ⟨[], ["a".toList], [strBytes "a".toList], rfl, rfl, .cons rfl .nil, by simp, rfl⟩)] at hr
  obtain ⟨b, hb, -, hb2⟩ := C01_stats_argument_lost .release (some .bytes) (strBytes "a".toList) (by decide)
  simp only [Builder.bytesAll, hb, Outcome.ok.injEq] at hr
  subst hr
  have := hv.arg 0
  rw [hb2] at this
  simp at this

/-- C45. A line that does not begin with a command name, alone or with one of the type names, is rejected;
so is one that begins with a space, or is empty. -/
theorem C45_rejected (m : Mode) (std : Std) (w : Text) (words : List Text) (hw : ' ' ∉ w)
    (hs : ∀ x ∈ words, ' ' ∉ x) (h : ∀ c t, ¬ Head c t w) :
    Cli.parse m std (lineOf w words) = .err (if w = [] then .noCommandProvided else .invalidCommandType w) := by
  unfold Cli.parse
  rw [splitOn_lineOf w words hw hs]
  cases w with
  | nil => rfl
  | cons a w =>
    have : Cli.command (a :: w) = none := by
      cases hc : Cli.command (a :: w) with
      | none => rfl
      | some p => exact absurd ((command_iff _ p.1 (p.2.getD .bytes)).mp ⟨p.2, by rw [hc], rfl⟩) (h _ _)
    simp only [this]
    rfl

/-- `set:int k -12 +7` -/
example : ∃ r, Cli.parse .debug plainStd "set:int k -12 +7".toList = .ok r ∧
    Views r .set (some .integer) [[107], [255, 255, 255, 255, 255, 255, 255, 244], [0, 0, 0, 0, 0, 0, 0, 7]] := by
  have h := C45_parsed_partial .debug plainStd .set .integer "set:int".toList
    ["k".toList, "-12".toList, "+7".toList]
    [[107], [255, 255, 255, 255, 255, 255, 255, 244], [0, 0, 0, 0, 0, 0, 0, 7]]
    (.inr ⟨"int", by decide, by decide⟩) (by decide)
    (.inr ⟨["k".toList], ["-12".toList, "+7".toList],
      [[255, 255, 255, 255, 255, 255, 255, 244], [0, 0, 0, 0, 0, 0, 0, 7]], rfl, rfl,
      .cons ⟨-12, ⟨"12".toList, by decide, by decide, .inr ⟨by decide, by decide⟩⟩, by decide, by decide⟩
        (.cons ⟨7, ⟨"7".toList, by decide, by decide, .inl ⟨.inr (by decide), by decide⟩⟩, by decide, by decide⟩ .nil),
      by decide, by decide⟩) (by decide) (by decide)
  exact h

example : Cli.parse .debug plainStd "set:text k v".toList = .err (.invalidCommandType "set:text".toList) := by
  decide +kernel

/-! ## C69 Every line is parsed or refused for a reason -/

/-- C69. What parsing does with any line at all: a line has exactly one division into words, and parsing
* refuses it without a command if it is empty or begins with a space;
* refuses it if the first word is not a command with an optional type;
* refuses it if there are words, but fewer than the command has keys;
* refuses it, naming the word, if a word after the keys does not spell a value of the type;
* refuses it if one of the arguments is empty (two spaces in a row);
* panics only if there are more than 255 arguments;
* otherwise gives a request for that command and type with those arguments, where the last word is ignored if
  the type is `map` and it would be a key without a value. -/
theorem C69_every_line (m : Mode) (std : Std) (line : Text) :
    ∃ w words, line = lineOf w words ∧ ' ' ∉ w ∧ (∀ x ∈ words, ' ' ∉ x) ∧
      (w = [] ∧ Cli.parse m std line = .err .noCommandProvided ∨
        w ≠ [] ∧ (∀ c t, ¬ Head c t w) ∧ Cli.parse m std line = .err (.invalidCommandType w) ∨
        ∃ c t, Head c t w ∧
          (words ≠ [] ∧ words.length < keyWords c words ∧ Cli.parse m std line = .err .keyUnspecified ∨
            (∃ x ∈ words.drop (keyWords c words), (∀ b, ¬ Spells std t x b) ∧
              Cli.parse m std line = .err (.argumentInvalid x t)) ∨
            ∃ args, Ignoring std c t words args ∧
              ([] ∈ args ∧ Cli.parse m std line = .err (.buildingRequest .argumentEmpty) ∨
                255 < args.length ∧ Cli.parse m std line = .panic ∨
                [] ∉ args ∧ (m = .debug → args.length ≤ 255) ∧ ∃ r, Cli.parse m std line = .ok r ∧ r.commandId = c ∧
                  r.keyType = some t ∧ (args.length ≤ 255 → c ≠ .stats → Views r c (some t) args)))) := by
  obtain ⟨w, words, -, rfl, hw, hs⟩ := splitOn_inv line
  refine ⟨w, words, rfl, hw, hs, ?_⟩
  by_cases hh : ∃ c t, Head c t w
  · obtain ⟨c, t, hh⟩ := hh
    refine .inr (.inr ⟨c, t, hh, ?_⟩)
    have finish : ∀ args, Ignoring std c t words args →
        Cli.parse m std (lineOf w words) = (match (Builder.newWithKeyType c (some t)).bytesAll m args with
          | (.ok (), b') => .ok b'.intoRequest
          | (.err e, _) => .err (.buildingRequest e)
          | (.panic, _) => .panic
          | (.stuck, _) => .stuck) →
        ([] ∈ args ∧ Cli.parse m std (lineOf w words) = .err (.buildingRequest .argumentEmpty) ∨
          255 < args.length ∧ Cli.parse m std (lineOf w words) = .panic ∨
          [] ∉ args ∧ (m = .debug → args.length ≤ 255) ∧ ∃ r, Cli.parse m std (lineOf w words) = .ok r ∧
            r.commandId = c ∧ r.keyType = some t ∧ (args.length ≤ 255 → c ≠ .stats → Views r c (some t) args)) := by
      intro args _ hp
      rw [hp]
      obtain ⟨h1, h2, h3, h4⟩ := (Holds.new c (some t)).bytesAll m args (by omega)
      cases hb : (Builder.newWithKeyType c (some t)).bytesAll m args with
      | mk o b =>
        rw [hb] at h1 h2 h3 h4
        cases o with
        | ok u =>
          cases u
          obtain ⟨h5, h6, h7⟩ := bytesAll_keeps hb
          refine .inr (.inr ⟨fun h => h7 [] h rfl, fun hm => by have := h4 rfl hm; omega, b.intoRequest, rfl, h5, h6, ?_⟩)
          intro hn hc
          obtain ⟨b', hb', hv, -⟩ := C01_built_request_args m c (some t) args (.inl hc) hn h7
          rw [hb] at hb'
          cases hb'
          exact hv
        | err e =>
          obtain ⟨rfl, h5⟩ := h2 e rfl
          exact .inl ⟨h5, rfl⟩
        | panic => exact .inr (.inl ⟨by have := h1 rfl; omega, rfl⟩)
        | stuck => exact absurd rfl h3
    have hline := parse_line m std words hh hs
    by_cases hne : words = []
    · subst hne
      have hi : Ignoring std c t [] [] := ⟨[], [], rfl, by simp, fun h => absurd rfl h, .inl ⟨rfl, rfl⟩⟩
      exact .inr (.inr ⟨[], hi, finish [] hi (by rw [hline]; rfl)⟩)
    · have hline' : Cli.parse m std (lineOf w words) =
          match Cli.inputArgs std words c t with
          | .error e => .err e
          | .ok args =>
            match (Builder.newWithKeyType c (some t)).bytesAll m args with
            | (.ok (), b') => .ok b'.intoRequest
            | (.err e, _) => .err (.buildingRequest e)
            | (.panic, _) => .panic
            | (.stuck, _) => .stuck := by
        rw [hline]
        cases words with
        | nil => exact absurd rfl hne
        | cons _ _ => rfl
      cases hi : Cli.inputArgs std words c t with
      | error e =>
        rw [hi] at hline'
        rcases inputArgs_error hi with ⟨rfl, hk⟩ | ⟨x, hx, h1, rfl⟩
        · exact .inl ⟨hne, hk, hline'⟩
        · exact .inr (.inl ⟨x, hx, h1, hline'⟩)
      | ok args =>
        rw [hi] at hline'
        have hg := inputArgs_inv hi
        exact .inr (.inr ⟨args, hg, finish args hg hline'⟩)
  · have hno : ∀ c t, ¬ Head c t w := fun c t h => hh ⟨c, t, h⟩
    have := C45_rejected m std w words hw hs hno
    by_cases he : w = []
    · rw [if_pos he] at this; exact .inl ⟨he, this⟩
    · rw [if_neg he] at this; exact .inr (.inl ⟨he, hno, this⟩)

/-- An odd map key is ignored without an error. -/
example : ∃ r, Cli.parse .debug plainStd "set:map k a b c".toList = .ok r ∧
    r.argsFrom 0 = some [[107], [97], [98]] := by
  refine ⟨_, rfl, ?_⟩
  decide +kernel

example : Cli.parse .debug plainStd "rename a".toList = .err .keyUnspecified ∧
    Cli.parse .debug plainStd "get  a".toList = .err (.buildingRequest .argumentEmpty) ∧
    Cli.parse .debug plainStd "set:int k 9223372036854775808".toList =
      .err (.argumentInvalid "9223372036854775808".toList .integer) ∧
    Cli.parse .debug plainStd " get a".toList = .err .noCommandProvided := by
  decide +kernel

/-! ## Further concrete cases -/

example : Cli.parse .debug plainStd "gte k".toList = .err (.invalidCommandType "gte".toList) :=
  C45_rejected .debug plainStd "gte".toList ["k".toList] (by decide) (by decide) (by
    intro c t h
    rcases h with ⟨h, -⟩ | ⟨a, ha, h⟩
    · revert h; cases c <;> decide
    · have hm : ':' ∈ "gte".toList := by rw [h]; simp
      exact absurd hm (by decide))

end Hop
