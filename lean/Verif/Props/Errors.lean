import Verif.Model.Errors
import Verif.Props.CliOutput
import Verif.Props.Value
import Verif.Props.Response
import Verif.Spec.Sample

/-!
# C108 Different errors read differently, C109 Errors report their cause, C110 Conversions
-/

namespace Hop

open Cli (Text)
open Spec

/-! ## C108 -/

theorem showNat_digit (n : Nat) : ∀ c ∈ Cli.showNat n, c.isDigit = true := by
  intro c h
  rw [showNat_eq] at h
  exact Nat.isDigit_of_mem_toDigits (by omega) (by omega) h

theorem showNat_inj {n k : Nat} (h : Cli.showNat n = Cli.showNat k) : n = k := by
  rw [showNat_eq, showNat_eq] at h
  have := congrArg (fun s => Nat.ofDigitChars 10 s 0) h
  simpa [Nat.ofDigitChars_toDigits] using this

/-- What follows a number that is not followed by a digit is determined, and so is the number. -/
theorem number_then {n k : Nat} {c : Char} {x y : Text} (hc : c.isDigit = false)
    (h : Cli.showNat n ++ c :: x = Cli.showNat k ++ c :: y) : n = k ∧ x = y := by
  have key : ∀ (a b : Text), (∀ d ∈ a, d.isDigit = true) → (∀ d ∈ b, d.isDigit = true) →
      a ++ c :: x = b ++ c :: y → a = b ∧ x = y := by
    intro a
    induction a with
    | nil =>
      intro b _ hb h
      cases b with
      | nil => exact ⟨rfl, by simpa using h⟩
      | cons d b => simp only [List.nil_append, List.cons_append, List.cons.injEq] at h
                    rw [← h.1] at hb; simp [hc] at hb
    | cons d a ih =>
      intro b ha hb h
      cases b with
      | nil => simp only [List.nil_append, List.cons_append, List.cons.injEq] at h
               rw [h.1] at ha; simp [hc] at ha
      | cons e b =>
        simp only [List.cons_append, List.cons.injEq] at h
        obtain ⟨h1, h2⟩ := ih b (fun d hd => ha d (by simp [hd])) (fun d hd => hb d (by simp [hd])) h.2
        exact ⟨by rw [h.1, h1], h2⟩
  obtain ⟨h1, h2⟩ := key _ _ (showNat_digit n) (showNat_digit k) h
  exact ⟨showNat_inj h1, h2⟩

theorem number_then' {n k : Nat} {x y : Text}
    (h : text!"key type " ++ (Cli.showNat n ++ (text!" is not supported by this command (value: " ++ x)) =
      text!"key type " ++ (Cli.showNat k ++ (text!" is not supported by this command (value: " ++ y))) :
    n = k ∧ x = y := by
  have h := List.append_cancel_left h
  rw [show text!" is not supported by this command (value: " =
    ' ' :: text!"is not supported by this command (value: " by decide +kernel] at h
  obtain ⟨h1, h2⟩ := number_then (c := ' ') (by decide) h
  exact ⟨h1, List.append_cancel_left h2⟩

/-- Closes `text = text → e = e'` for two particular errors. -/
local macro "different" : tactic =>
  `(tactic| first | (intro _; rfl) | (intro h; exact absurd h (by decide +kernel)))

theorem dispatch_text_inj {e e' : DispatchError} (h : e.text = e'.text) : e = e' := by
  revert h; cases e <;> cases e' <;> different

theorem dispatch_debug_inj {e e' : DispatchError} (h : e.debug = e'.debug) : e = e' := by
  revert h; cases e <;> cases e' <;> different

theorem builder_text_inj {e e' : BuilderError} (h : e.text = e'.text) : e = e' := by
  revert h; cases e <;> cases e' <;> different

theorem builder_debug_inj {e e' : BuilderError} (h : e.debug = e'.debug) : e = e' := by
  revert h; cases e <;> cases e' <;> different

theorem reqParse_debug_inj {e e' : ReqParseError} (h : e.debug = e'.debug) : e = e' := by
  revert h; cases e <;> cases e' <;> different

theorem uint8_toNat_inj {a b : UInt8} (h : a.toNat = b.toNat) : a = b := UInt8.toNat_inj.mp h

theorem keyType_toByte_inj {t u : KeyType} (h : t.toByte.toNat = u.toByte.toNat) : t = u := by
  revert h; cases t <;> cases u <;> simp [KeyType.toByte]

/-- Two texts that agree agree in their beginnings. -/
theorem starts_agree {a b x y : Text} (h : a ++ x = b ++ y) :
    a.take b.length = b.take a.length := by
  have h1 : (a ++ x).take (min a.length b.length) = (b ++ y).take (min a.length b.length) := by rw [h]
  rw [List.take_append_of_le_length (by omega), List.take_append_of_le_length (by omega)] at h1
  by_cases hl : a.length ≤ b.length
  · rw [Nat.min_eq_left hl] at h1
    rw [List.take_of_length_le hl, ← h1, List.take_length]
  · rw [Nat.min_eq_right (by omega)] at h1
    rw [List.take_of_length_le (l := b) (i := a.length) (by omega), h1, List.take_length]

/-- How a refusal begins. -/
def Cli.ParseError.start : Cli.ParseError → Text
  | .argumentInvalid _ _ => text!"the a"
  | .buildingRequest _ => text!"Faile"
  | .invalidCommandType _ => text!"the c"
  | .keyUnspecified => text!"A key"
  | .mapIncomplete _ => text!"the m"
  | .noCommandProvided => text!"no co"

theorem parse_start (e : Cli.ParseError) : e.text.take 5 = e.start := by cases e <;> rfl

/-- Closes a case where the beginnings differ. -/
local macro "elsewhere" h:term : tactic => `(tactic| exact absurd $h (by decide +kernel))

/-- C108: two refusals of a line that read the same are the same, including the argument, command or key
they quote and the type they name. -/
theorem C108_parse (e e' : Cli.ParseError) (h : e.text = e'.text) : e = e' := by
  have hs : e.start = e'.start := by rw [← parse_start, ← parse_start, h]
  cases e <;> cases e' <;> dsimp only [Cli.ParseError.start] at hs <;> try elsewhere hs
  all_goals try dsimp only [Cli.ParseError.text] at h
  case argumentInvalid.argumentInvalid a t a' t' =>
    have h := List.append_cancel_left h
    have hr := congrArg List.reverse h
    simp only [List.reverse_append, List.append_assoc] at hr
    have ht := starts_agree hr
    have ht : t = t' := by
      clear h hr
      revert ht
      cases t <;> cases t' <;> different
    subst ht
    rw [List.append_cancel_right h]
  case buildingRequest.buildingRequest e e' => rw [builder_text_inj (List.append_cancel_left h)]
  case invalidCommandType.invalidCommandType n n' =>
    rw [List.append_cancel_right (List.append_cancel_left h)]
  case mapIncomplete.mapIncomplete k k' => rw [List.append_cancel_left h]
  all_goals rfl

/-- How an error of the in-memory backend begins. -/
def Client.Error.start : Client.Error → Text
  | .badRequest _ => text!"reque"
  | .buildingRequest _ => text!"faile"
  | .dispatching _ => text!"dispa"
  | .keyTypeInvalid _ => text!"the p"
  | .keyTypeUnsupported _ _ => text!"key t"
  | .runningCommand e => e.text.take 5

theorem memory_start (d : Value → Text) (e : Client.Error) : (e.text d).take 5 = e.start := by cases e <;> rfl

/-- C108 for errors of the in-memory backend. The value that is quoted is shown by `{:?}`, which this
model does not define; everything else is determined by the text. -/
theorem C108_memory (debugValue : Value → Text) (e e' : Client.Error)
    (h : e.text debugValue = e'.text debugValue) :
    e = e' ∨ ∃ t v v', e = .keyTypeUnsupported t v ∧ e' = .keyTypeUnsupported t v' ∧
      debugValue v = debugValue v' := by
  have hs : e.start = e'.start := by rw [← memory_start debugValue, ← memory_start debugValue, h]
  have other : ∀ (d : DispatchError) (s : Text), d.text.take 5 = s →
      s ≠ text!"reque" ∧ s ≠ text!"faile" ∧ s ≠ text!"dispa" ∧ s ≠ text!"the p" ∧
        s ≠ text!"key t" := by
    rintro d s rfl
    cases d <;> decide +kernel
  cases e with
  | badRequest e =>
    cases e' with
    | badRequest e' => exact .inl (by rw [reqParse_debug_inj (List.append_cancel_left h)])
    | buildingRequest e' => dsimp only [Client.Error.start] at hs; elsewhere hs
    | dispatching e' => dsimp only [Client.Error.start] at hs; elsewhere hs
    | keyTypeInvalid n' => dsimp only [Client.Error.start] at hs; elsewhere hs
    | keyTypeUnsupported t' v' => dsimp only [Client.Error.start] at hs; elsewhere hs
    | runningCommand d' => exact absurd rfl (other d' _ hs.symm).1
  | buildingRequest e =>
    cases e' with
    | badRequest e' => dsimp only [Client.Error.start] at hs; elsewhere hs
    | buildingRequest e' => exact .inl (by rw [builder_debug_inj (List.append_cancel_left h)])
    | dispatching e' => dsimp only [Client.Error.start] at hs; elsewhere hs
    | keyTypeInvalid n' => dsimp only [Client.Error.start] at hs; elsewhere hs
    | keyTypeUnsupported t' v' => dsimp only [Client.Error.start] at hs; elsewhere hs
    | runningCommand d' => exact absurd rfl (other d' _ hs.symm).2.1
  | dispatching e =>
    cases e' with
    | badRequest e' => dsimp only [Client.Error.start] at hs; elsewhere hs
    | buildingRequest e' => dsimp only [Client.Error.start] at hs; elsewhere hs
    | dispatching e' => exact .inl (by rw [dispatch_debug_inj (List.append_cancel_left h)])
    | keyTypeInvalid n' => dsimp only [Client.Error.start] at hs; elsewhere hs
    | keyTypeUnsupported t' v' => dsimp only [Client.Error.start] at hs; elsewhere hs
    | runningCommand d' => exact absurd rfl (other d' _ hs.symm).2.2.1
  | keyTypeInvalid n =>
    cases e' with
    | badRequest e' => dsimp only [Client.Error.start] at hs; elsewhere hs
    | buildingRequest e' => dsimp only [Client.Error.start] at hs; elsewhere hs
    | dispatching e' => dsimp only [Client.Error.start] at hs; elsewhere hs
    | keyTypeInvalid n' => exact .inl (by rw [uint8_toNat_inj (showNat_inj (List.append_cancel_right (List.append_cancel_left h)))])
    | keyTypeUnsupported t' v' => dsimp only [Client.Error.start] at hs; elsewhere hs
    | runningCommand d' => exact absurd rfl (other d' _ hs.symm).2.2.2.1
  | keyTypeUnsupported t v =>
    cases e' with
    | badRequest e' => dsimp only [Client.Error.start] at hs; elsewhere hs
    | buildingRequest e' => dsimp only [Client.Error.start] at hs; elsewhere hs
    | dispatching e' => dsimp only [Client.Error.start] at hs; elsewhere hs
    | keyTypeInvalid n' => dsimp only [Client.Error.start] at hs; elsewhere hs
    | keyTypeUnsupported t' v' => 
      dsimp only [Client.Error.text] at h
      obtain ⟨h1, h2⟩ := number_then' h
      obtain rfl := keyType_toByte_inj h1
      exact .inr ⟨t, v, v', rfl, rfl, List.append_cancel_right h2⟩
    | runningCommand d' => exact absurd rfl (other d' _ hs.symm).2.2.2.2
  | runningCommand d =>
    cases e' with
    | badRequest e' => exact absurd rfl (other d _ hs).1
    | buildingRequest e' => exact absurd rfl (other d _ hs).2.1
    | dispatching e' => exact absurd rfl (other d _ hs).2.2.1
    | keyTypeInvalid n' => exact absurd rfl (other d _ hs).2.2.2.1
    | keyTypeUnsupported t' v' => exact absurd rfl (other d _ hs).2.2.2.2
    | runningCommand d' => exact .inl (by rw [dispatch_text_inj h])

/-- Specification: the same error apart from the `io::Error`s inside. -/
def Spec.SameBut {Io : Type} : Client.Server.FullError Io → Client.Server.FullError Io → Prop
  | .connecting _, .connecting _ => True
  | .readingMessage _, .readingMessage _ => True
  | .writingMessage _, .writingMessage _ => True
  | e, e' => e = e'

/-- How an error of the TCP backend begins. -/
def Client.Server.FullError.start {Io : Type} : Client.Server.FullError Io → Text
  | .badRequest _ => text!"server couldn't pa"
  | .badResponse => text!"the re"
  | .buildingRequest _ => text!"failed to bui"
  | .connecting _ => text!"failed to con"
  | .connectionClosed => text!"connect"
  | .dispatching _ => text!"server couldn't pr"
  | .keyTypeInvalid _ => text!"the prov"
  | .keyTypeUnsupported _ => text!"key type "
  | .readingMessage _ => text!"failed to rea"
  | .writingMessage _ => text!"failed to wri"

theorem server_start {Io : Type} (e : Client.Server.FullError Io) : ∃ x, e.text = e.start ++ x := by
  cases e with
  | badRequest e => exact ⟨text!"rse request: " ++ e.debug, rfl⟩
  | badResponse => exact ⟨text!"sponse wasn't an expected type", rfl⟩
  | buildingRequest e => exact ⟨text!"ld request: " ++ e.debug, rfl⟩
  | connecting _ => exact ⟨text!"nect", rfl⟩
  | connectionClosed => exact ⟨text!"ion closed", rfl⟩
  | dispatching e => exact ⟨text!"ocess command: " ++ e.debug, rfl⟩
  | keyTypeInvalid n => exact ⟨text!"ided key type (" ++ (Cli.showNat n.toNat ++ text!") is invalid"), rfl⟩
  | keyTypeUnsupported t => exact ⟨Cli.showNat t.toByte.toNat ++ text!" is not supported by this command", rfl⟩
  | readingMessage _ => exact ⟨text!"d a message", rfl⟩
  | writingMessage _ => exact ⟨text!"te a message", rfl⟩

/-- C108 for errors of the TCP backend: the text determines everything but the `io::Error`, which is
reported as the source (C109). -/
theorem C108_server {Io : Type} (e e' : Client.Server.FullError Io) (h : e.text = e'.text) :
    Spec.SameBut e e' := by
  have hs : e.start.take e'.start.length = e'.start.take e.start.length := by
    obtain ⟨x, hx⟩ := server_start e
    obtain ⟨y, hy⟩ := server_start e'
    exact starts_agree (by rw [← hx, ← hy, h])
  cases e <;> cases e' <;> dsimp only [Client.Server.FullError.start] at hs <;> try elsewhere hs
  case badRequest.badRequest e e' =>
    exact congrArg _ (reqParse_debug_inj (List.append_cancel_left h))
  case badResponse.badResponse => exact rfl
  case buildingRequest.buildingRequest e e' =>
    exact congrArg _ (builder_debug_inj (List.append_cancel_left h))
  case connectionClosed.connectionClosed => exact rfl
  case dispatching.dispatching e e' =>
    exact congrArg _ (dispatch_debug_inj (List.append_cancel_left h))
  case keyTypeInvalid.keyTypeInvalid n n' =>
    exact congrArg _ (uint8_toNat_inj (showNat_inj (List.append_cancel_right (List.append_cancel_left h))))
  case keyTypeUnsupported.keyTypeUnsupported t t' =>
    exact congrArg _ (keyType_toByte_inj (showNat_inj (List.append_cancel_right (List.append_cancel_left h))))
  all_goals exact trivial

/-- C108 for the errors of the CLI: the text determines the kind, and the text of what it was caused by. -/
theorem C108_process {B : Type} (backendText : B → Text) (e e' : Cli.ProcessError B)
    (h : e.text backendText = e'.text backendText) :
    e = e' ∨ ∃ b b', e = .backend b ∧ e' = .backend b' ∧ backendText b = backendText b' := by
  have far : ∀ {x y : Text}, text!"backend encountered an error: " ++ x ≠ text!"failed to parse input: " ++ y ∧
      text!"backend encountered an error: " ++ x ≠ text!"failed to write output: " ++ y ∧
      text!"failed to parse input: " ++ x ≠ text!"failed to write output: " ++ y := by
    intro x y
    refine ⟨?_, ?_, ?_⟩ <;> exact fun h => absurd (starts_agree h) (by decide +kernel)
  cases e with
  | backend b =>
    cases e' with
    | backend b' => exact .inr ⟨b, b', rfl, rfl, List.append_cancel_left h⟩
    | parsingInput _ => exact absurd h far.1
    | writingOutput => exact absurd h far.2.1
  | parsingInput p =>
    cases e' with
    | backend b' => exact absurd h.symm far.1
    | parsingInput p' => exact .inl (by rw [C108_parse _ _ (List.append_cancel_left h)])
    | writingOutput => exact absurd h far.2.2
  | writingOutput =>
    cases e' with
    | backend b' => exact absurd h.symm far.2.1
    | parsingInput _ => exact absurd h.symm far.2.2
    | writingOutput => exact .inl rfl

/-- C108: the CLI answers different refusals by the engine with different texts. -/
theorem C108_refusals (e e' : DispatchError)
    (h : (Cli.fault (.runningCommand e)).message = (Cli.fault (.runningCommand e')).message) : e = e' := by
  cases e <;> cases e' <;>
    first | rfl | exact absurd (String.toList_inj.mp h) (by decide)

/-- C108: and neither reads like a configuration error. -/
theorem C108_config (e e' : Client.ConfigError) (h : e.text = e'.text) : e = e' := by
  revert h; cases e <;> cases e' <;> different

example : (Cli.ParseError.argumentInvalid text!"a' is not a map" .boolean).text ≠
    (Cli.ParseError.argumentInvalid text!"a" .map).text := fun h => by cases C108_parse _ _ h

/-! ## C109 -/

/-- Specification: the error an error contains. -/
inductive Spec.CausedBy {Io : Type} : Client.Error ⊕ Client.Server.FullError Io ⊕ Cli.ParseError ⊕
    Cli.ProcessError Client.Error → Cause Io Client.Error → Prop
  | request (e) : CausedBy (.inl (.badRequest e)) (.request e)
  | building (e) : CausedBy (.inl (.buildingRequest e)) (.builder e)
  | dispatching (e) : CausedBy (.inl (.dispatching e)) (.dispatch e)
  | running (e) : CausedBy (.inl (.runningCommand e)) (.dispatch e)
  | remoteRequest (e) : CausedBy (.inr (.inl (.badRequest e))) (.request e)
  | remoteBuilding (e) : CausedBy (.inr (.inl (.buildingRequest e))) (.builder e)
  | remoteDispatching (e) : CausedBy (.inr (.inl (.dispatching e))) (.dispatch e)
  | connecting (e) : CausedBy (.inr (.inl (.connecting e))) (.io e)
  | reading (e) : CausedBy (.inr (.inl (.readingMessage e))) (.io e)
  | writing (e) : CausedBy (.inr (.inl (.writingMessage e))) (.io e)
  | line (e) : CausedBy (.inr (.inr (.inl (.buildingRequest e)))) (.builder e)
  | backend (e) : CausedBy (.inr (.inr (.inr (.backend e)))) (.backend e)
  | parsing (e) : CausedBy (.inr (.inr (.inr (.parsingInput e)))) (.parsing e)
  | output : CausedBy (.inr (.inr (.inr .writingOutput))) .formatting

/-- `source` of any of the errors. -/
def anySource {Io : Type} : Client.Error ⊕ Client.Server.FullError Io ⊕ Cli.ParseError ⊕
    Cli.ProcessError Client.Error → Option (Cause Io Client.Error)
  | .inl e => e.source
  | .inr (.inl e) => e.source
  | .inr (.inr (.inl e)) => e.source
  | .inr (.inr (.inr e)) => e.source

/-- C109 as one would expect it of `source`: an error that contains another one reports it. -/
def C109_Statement : Prop := ∀ (Io : Type) (e) (c : Cause Io Client.Error), Spec.CausedBy e c → anySource e = some c

/-- It does not hold: an argument that was refused is not reported by the error about it. -/
theorem C109_false : ¬ C109_Statement := by
  intro h
  have := h Unit _ _ (.building .argumentEmpty)
  simp [anySource, Client.Error.source] at this

/-- C109, the part that holds: what is reported is what is contained; the I/O errors of the TCP backend and
everything the CLI's error contains are reported, and nothing else is. Missing: the causes of errors of
the in-memory backend and of parsing, and those the TCP backend was told about. -/
theorem C109_sources_partial {Io : Type} (e) (c : Cause Io Client.Error) :
    anySource e = some c ↔ Spec.CausedBy e c ∧
      ((∃ i, c = .io i) ∨ (∃ b, c = .backend b) ∨ (∃ p, c = .parsing p) ∨ c = .formatting) := by
  constructor
  · intro h
    rcases e with e | e | e | e <;> cases e <;>
      simp [anySource, Client.Error.source, Client.Server.FullError.source, Cli.ParseError.source,
        Cli.ProcessError.source] at h <;> subst h <;> exact ⟨by constructor, by simp⟩
  · rintro ⟨h, hc⟩
    cases h <;> simp at hc <;> rfl

example : anySource (Io := Nat) (.inr (.inl (.readingMessage 3))) = some (.io 3) :=
  (C109_sources_partial _ _).mpr ⟨.reading 3, .inl ⟨3, rfl⟩⟩

/-! ## C110 -/

/-- C110: what is converted to a value is what the accessor of its type returns, and the others return
nothing. -/
theorem C110_value (v : Value) :
    (∀ b, Value.ofPlain (.bool b) = v → v.asBoolean = some b ∧ v.kind = .boolean) ∧
    (∀ b, Value.ofPlain (.vec b) = v → v.asBytes = some b ∧ v.kind = .bytes) ∧
    (∀ f, Value.ofPlain (.f64 f) = v → v.asFloat = some f ∧ v.kind = .float) ∧
    (∀ i, Value.ofPlain (.i64 i) = v → v.asInteger = some i ∧ v.kind = .integer) ∧
    (∀ l, Value.ofPlain (.vecVec l) = v → v.asList = some l ∧ v.kind = .list) ∧
    (∀ m, Value.ofPlain (.map m) = v → v.asMap = some m ∧ v.kind = .map) ∧
    (∀ s, Value.ofPlain (.set s) = v → v.asSet = some s ∧ v.kind = .set) ∧
    (∀ s, Value.ofPlain (.string s) = v → v.asString = some s ∧ v.kind = .string) := by
  refine ⟨?_, ?_, ?_, ?_, ?_, ?_, ?_, ?_⟩ <;> rintro x rfl <;> exact ⟨rfl, rfl⟩

/-- C110: conversions are one-to-one and every value is one. -/
theorem C110_every (v : Value) : ∃ p, Value.ofPlain p = v ∧ ∀ q, Value.ofPlain q = v → q = p := by
  cases v with
  | boolean b => exact ⟨.bool b, rfl, fun q h => by cases q <;> simp [Value.ofPlain] at h; rw [h]⟩
  | bytes b => exact ⟨.vec b, rfl, fun q h => by cases q <;> simp [Value.ofPlain] at h; rw [h]⟩
  | float b => exact ⟨.f64 b, rfl, fun q h => by cases q <;> simp [Value.ofPlain] at h; rw [h]⟩
  | integer b => exact ⟨.i64 b, rfl, fun q h => by cases q <;> simp [Value.ofPlain] at h; rw [h]⟩
  | list b => exact ⟨.vecVec b, rfl, fun q h => by cases q <;> simp [Value.ofPlain] at h; rw [h]⟩
  | map b => exact ⟨.map b, rfl, fun q h => by cases q <;> simp [Value.ofPlain] at h; rw [h]⟩
  | set b => exact ⟨.set b, rfl, fun q h => by cases q <;> simp [Value.ofPlain] at h; rw [h]⟩
  | string b => exact ⟨.string b, rfl, fun q h => by cases q <;> simp [Value.ofPlain] at h; rw [h]⟩

/-- C110: a converted response is decoded to the converted value, within the limits of C50. -/
theorem C110_response (env : Env) (p : Plain) (h : Fits env.mode (.value (Value.ofPlain p))) :
    ∃ out w, Response.asBytes env (Response.ofPlain p) = some out ∧
      RespParser.feed env.mode .new out = (.concluded (.value w), .new) ∧ Same w (Value.ofPlain p) := by
  have hp : Response.ofPlain p = .value (Value.ofPlain p) := by cases p <;> rfl
  obtain ⟨out, r', h1, h2, h3⟩ := C11_round_trip_partial env (.value (Value.ofPlain p)) [] h
  cases r' with
  | value w => exact ⟨out, w, by rw [hp]; exact h1, by simpa using h2, h3⟩
  | _ => simp [SameResponse] at h3

/-- C110: a converted error is decoded to that error. -/
theorem C110_errors (env : Env) (d : DispatchError) (p : ReqParseError) :
    (∃ out, Response.asBytes env (Response.ofDispatchError d) = some out ∧
      RespParser.feed env.mode .new out = (.concluded (.dispatchError d), .new)) ∧
    (∃ out, Response.asBytes env (Response.ofParseError p) = some out ∧
      RespParser.feed env.mode .new out = (.concluded (.parseError p), .new)) := by
  constructor
  · obtain ⟨out, r', h1, h2, h3⟩ := C11_round_trip_partial env (.dispatchError d) [] (by trivial)
    cases r' with
    | dispatchError w => cases h3; exact ⟨out, h1, by simpa using h2⟩
    | _ => simp [SameResponse] at h3
  · obtain ⟨out, r', h1, h2, h3⟩ := C11_round_trip_partial env (.parseError p) [] (by trivial)
    cases r' with
    | parseError w => cases h3; exact ⟨out, h1, by simpa using h2⟩
    | _ => simp [SameResponse] at h3

example : Fits .debug (.value (Value.ofPlain (.string text!"é"))) := by
  show (strBytes text!"é").length + 5 < 2 ^ 32
  decide +kernel

/-! ## Further concrete cases -/

example : Client.ConfigError.noKeys.text ≠ Client.ConfigError.tooManyKeys.text := fun h => by cases C108_config _ _ h

example (debugValue : Value → Text) : (Client.Error.runningCommand .keyNonexistent).text debugValue ≠
    (Client.Error.dispatching .keyNonexistent).text debugValue := by
  intro h
  rcases C108_memory debugValue _ _ h with h | ⟨_, _, _, h, -⟩ <;> cases h

example (b : Nat) : (Cli.ProcessError.backend b).text (fun _ : Nat => text!"none") ≠
    (Cli.ProcessError.parsingInput .noCommandProvided).text (fun _ : Nat => text!"none") := by
  intro h
  rcases C108_process _ _ _ h with h | ⟨_, _, _, h, -⟩ <;> cases h

example : (Cli.fault (.runningCommand .keyNonexistent)).message ≠ (Cli.fault (.runningCommand .keyTypeDifferent)).message :=
  fun h => by cases C108_refusals _ _ h

example : (Client.Server.FullError.connecting 1).text ≠ (Client.Server.FullError.readingMessage 1).text := fun h => by cases C108_server _ _ h

example : ∃ out w, Response.asBytes (sampleEnv .debug) (Response.ofPlain (.vecVec [[1], [2, 3]])) = some out ∧
    RespParser.feed .debug .new out = (.concluded (.value w), .new) ∧ Same w (.list [[1], [2, 3]]) :=
  C110_response (sampleEnv .debug) (.vecVec [[1], [2, 3]]) ⟨by decide, by decide, by decide⟩

end Hop
