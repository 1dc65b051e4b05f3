import Verif.Model.Cli

/-!
# The start of the server: configuration and accept loop (server/src/main.rs 23-70)

Environment variables are parameters: `none` is what `env::var` reports for a variable that is not set or is
not valid Unicode (both are its `Err`). `IpAddr::from_str` is a parameter as well.
-/

namespace Hop.Config

open Hop.Cli (Text)

/-- `Config`, server/src/main.rs 23-26; `α` is the type of addresses. -/
structure Config (α : Type) where
  host : α
  port : UInt16

/-- `Config::PORT_DEFAULT`, server/src/main.rs 30. -/
def portDefault : UInt16 := 46733

/-- The loop of `u16::from_str_radix(.., 10)`: `result.checked_mul(10)`, then `checked_add(digit)`. Part of
`port.parse()`, server/src/main.rs 38. -/
def portDigits : Nat → Text → Option Nat
  | acc, [] => some acc
  | acc, c :: cs =>
    match Cli.digit c with
    | none => none
    | some d =>
      if 2 ^ 16 ≤ acc * 10 then none
      else if 2 ^ 16 ≤ acc * 10 + d then none
      else portDigits (acc * 10 + d) cs

/-- `str::parse::<u16>`: `from_str_radix` with radix 10. A leading `+` is skipped; for an unsigned type `-` is not a
digit; no digits are an error. Used in server/src/main.rs 38. -/
def parsePort (s : Text) : Option UInt16 :=
  let ds := match s with
    | '+' :: ds => ds
    | ds => ds
  if ds = [] then none else (portDigits 0 ds).map UInt16.ofNat

/-- `Config::new`, server/src/main.rs 32-43. `hostDefault` is `Config::HOST_DEFAULT`, line 29 (0.0.0.0). -/
def new {α : Type} (fromStr : Text → Option α) (hostDefault : α) (host port : Option Text) : Config α :=
  { host := match host with
      | some h => (fromStr h).getD hostDefault
      | none => hostDefault
    port := match port with
      | some p => (parsePort p).getD portDefault
      | none => portDefault }

/-- What `main` has done so far: the connections handed to `handle_socket` (in order) and what `main` returned, if
it has returned. server/src/main.rs 47-69. -/
structure Main (σ : Type) where
  spawned : List σ
  returned : Option (Except Unit Unit)

/-- One outcome of `incoming.next()` at the head of the loop, server/src/main.rs 64-68:
`while let Some(Ok(socket))` ends the loop on anything else, then `Ok(())` is returned. -/
def accept {σ ε : Type} (m : Main σ) (next : Option (Except ε σ)) : Main σ :=
  match m.returned with
  | some _ => m
  | none =>
    match next with
    | some (.ok socket) => { m with spawned := m.spawned ++ [socket] }
    | _ => { m with returned := some (.ok ()) }

/-- `main`, server/src/main.rs 46-70, after the given outcomes of `incoming.next()`; `bound` is whether
`TcpListener::bind` succeeded (line 56: `?` returns its error). What the spawned tasks do is
Model/Server.lean; logging is left out. -/
def main {σ ε : Type} (bound : Bool) (events : List (Option (Except ε σ))) : Main σ :=
  if bound then events.foldl accept { spawned := [], returned := none }
  else { spawned := [], returned := some (.error ()) }

end Hop.Config
