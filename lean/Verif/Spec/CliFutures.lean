import Verif.Model.CliFutures
import Verif.Spec.Cli
import Verif.Spec.Futures

/-! # What a line does with any backend -/

namespace Hop.Spec

open Client.Futures Cli

variable {σ ε : Type}

/-- The result is of the type the method of the backend returns. -/
def Api.fits : Api → Got → Bool
  | .append .., .value _ | .decrementBy .., .value _ | .decrement .., .value _ | .get _, .value _
  | .incrementBy .., .value _ | .increment .., .value _ | .set .., .value _ => true
  | .delete _, .bytes _ | .rename .., .bytes _ => true
  | .echo _, .list _ | .keys _, .list _ => true
  | .exists _, .bool _ | .is .., .bool _ => true
  | .keyType _, .kind _ => true
  | .length .., .int _ => true
  | .stats, .stats _ => true
  | _, _ => false

/-- What is reported for what the backend's future is at: results are written out, errors of the in-memory backend are
explained, other errors handed on as they are. -/
def relayed (env : Env) (std : Std) (asMemory : ε → Option Client.Error) (a : Api) :
    Poll (Except ε Got) → Poll (Except (ProcessError ε) Text)
  | .pending => .pending
  | .panic => .panic
  | .ready (.ok g) => match written env std a g with
    | some s => .ready (.ok s)
    | none => .panic
  | .ready (.error e) => match asMemory e with
    | some m => .ready (.ok (complaint m).toList)
    | none => .ready (.error (.backend e))

/-- Polling the future of a line `n` times: the results and the world afterwards. -/
def pollLine (env : Env) (std : Std) (asMemory : ε → Option Client.Error) (B : Backend σ ε) :
    Nat → Processing B.State → σ → List (Poll (Except (ProcessError ε) Text)) × σ
  | 0, _, w => ([], w)
  | n + 1, p, w =>
    let x := p.poll env std asMemory B w
    let rest := pollLine env std asMemory B n x.2.1 x.2.2
    (x.1 :: rest.1, rest.2)

/-- Ready at the first poll; polled again, it panics. -/
def atFirst {α : Type} (p : Poll α) : Nat → List (Poll α)
  | 0 => []
  | n + 1 => p :: List.replicate n .panic

/-- What polling a line `n` times comes to, by what it asks for. -/
def carriedOut (env : Env) (std : Std) (asMemory : ε → Option Client.Error) (B : Backend σ ε) (n : Nat) (w : σ) :
    Meaning → List (Poll (Except (ProcessError ε) Text)) × σ
  | .call a =>
    ((watch B none n (some (B.start a)) w).1.map (relayed env std asMemory a), (watch B none n (some (B.start a)) w).2)
  | .message s => (atFirst (.ready (.ok s.toList)) n, w)
  | .blank => (atFirst (.ready (.ok [])) n, w)
  | .unsupported => (atFirst .panic n, w)

/-- What polling a line once comes to, by how it ends when it is run. -/
def endedAs (x : Outcome DispatchError (Except ParseError Text)) : Poll (Except (ProcessError Client.Error) Text) :=
  match x with
  | .ok (.ok s) => .ready (.ok s)
  | .ok (.error e) => .ready (.error (.parsingInput e))
  | _ => .panic

end Hop.Spec
