import Verif.Model.Server
import Verif.Spec.Frames
import Verif.Spec.Store
import Verif.Spec.Response
import Verif.Spec.Concurrent

/-! # Specification of the server: what is heard on a connection and what is answered -/

namespace Hop.Spec

/-- What the server makes of a buffer: a command, or bytes it cannot read. -/
inductive Heard where
  | command (c : CommandId)
  | garbage (e : ReqParseError)

/-- The buffer is taken for a request of command `c`. -/
def Asks (buf : Bytes) (c : CommandId) : Prop :=
  (c = .stats ∧ ∃ rest, buf = CommandId.stats.toByte :: rest) ∨
  (takesArguments c ∧ ∃ (n : UInt8) (k : Nat), n.toNat = k + 1 ∧ Chunked c n k buf)

/-- The buffer cannot be read: its first byte is no command's code. -/
def Unreadable (buf : Bytes) (e : ReqParseError) : Prop :=
  ∃ b rest, buf = b :: rest ∧ (∀ cmd : CommandId, cmd.toByte ≠ b) ∧
    e = if 128 ≤ b.toNat then .keyTypeInvalid else .commandIdInvalid

/-- The buffer claims no arguments and contains more than 256. -/
def Overfull (buf : Bytes) : Prop := ∃ cmd, takesArguments cmd ∧ Chunked cmd 0 256 buf

/-- Understanding a buffer. -/
def Understood (buf : Bytes) : Heard → Prop
  | .command c => Asks buf c
  | .garbage e => Unreadable buf e

/-- What is heard on a connection whose input comes in the given pieces, when `sofar` is still
unanswered: pieces are collected until they are understood, then everything collected is dropped. -/
inductive Hears : Bytes → List Bytes → List Heard → Server.End → Prop
  | close {sofar} : Hears sofar [] [] .closed
  | wait {sofar piece pieces hs e} : (∀ h, ¬ Understood (sofar ++ piece) h) → ¬ Overfull (sofar ++ piece) →
      Hears (sofar ++ piece) pieces hs e → Hears sofar (piece :: pieces) hs e
  | hear {sofar piece pieces h hs e} : Understood (sofar ++ piece) h → Hears [] pieces hs e →
      Hears sofar (piece :: pieces) (h :: hs) e
  | crash {sofar piece pieces} : Overfull (sofar ++ piece) → Hears sofar (piece :: pieces) [] .panicked

/-- How a command is answered on a connection: Stats with statistics made of counter values that `seen`
allows, Echo with an empty list, everything else with an error. -/
def Answers (seen : Metric → Option Nat → Prop) (c : CommandId) (r : Response) : Prop :=
  match c with
  | .stats => ∃ ctrs, (∀ m ∈ [Metric.commandsErrored, .commandsSuccessful, .sessionsStarted], seen m (ctrs m)) ∧
      r = .value (.map (statistics ctrs))
  | .echo => r = .value (.list [])
  | .exists => r = .dispatchError .argumentRetrieval
  | .is => r = .dispatchError .keyTypeRequired
  | _ => r = .dispatchError .keyUnspecified

/-- How anything is answered. -/
def Responds (seen : Metric → Option Nat → Prop) : Heard → Response → Prop
  | .command c, r => Answers seen c r
  | .garbage e, r => r = .parseError e

/-- The value of a counter at some moment during the schedule. -/
def SeenDuring {α} (p : Pool α) (sched : List Nat) (m : Metric) (o : Option Nat) : Prop :=
  ∃ s t, sched = s ++ t ∧ o = (p.exec s).db.ctrs m

/-- How many pieces of input all clients send together. -/
def pieceCount (streams : List Bytes) : Nat := (streams.map fun s => (Server.lines s).length).sum

/-- The bytes of a list of responses. -/
def wire (env : Env) (rs : List Response) : Bytes := rs.flatMap fun r => frame (ordered env r)

end Hop.Spec
