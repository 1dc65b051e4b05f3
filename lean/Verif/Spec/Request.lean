import Verif.Model.Request

/-!
# Specification of requests

What a request *is* for a user (a command, an optional key type, a list of arguments), and the wire
layout. Neither refers to the builder or to positions.
-/

namespace Hop.Spec

/-- The accessors of `r` report exactly this command, key type and argument list. -/
structure Views (r : Request) (c : CommandId) (kt : Option KeyType) (args : List Bytes) : Prop where
  command : r.commandId = c
  keyType : r.keyType = kt
  count : r.argCount = args.length
  arg : ∀ i, r.arg i = args[i]?

/-- One argument on the wire: four big-endian length bytes, then the data. -/
def encodeArg (a : Bytes) : Bytes := beBytes 4 a.length ++ a

/-- Command byte (high bit set iff a key type follows) and key-type byte. -/
def encodeHead (c : CommandId) : Option KeyType → Bytes
  | none => [c.toByte]
  | some t => [c.toByte ||| 128, t.toByte]

/-- The wire layout of a request of a command that takes arguments. -/
def encode (c : CommandId) (kt : Option KeyType) (args : List Bytes) : Bytes :=
  encodeHead c kt ++ [UInt8.ofNat args.length] ++ args.flatMap encodeArg

end Hop.Spec
