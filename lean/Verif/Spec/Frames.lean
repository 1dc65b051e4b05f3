import Verif.Spec.Request

/-! # Shapes of byte buffers, without reference to the parser -/

namespace Hop.Spec

/-- What the server takes for a complete last argument: four length bytes are there, and the buffer
holds as many bytes *from the length field on* as the length announces (so the last four data bytes may
be missing). -/
def LastReady (tail : Bytes) : Prop := 4 ≤ tail.length ∧ beNat (tail.take 4) ≤ tail.length

/-- `buf` starts with command `c`, count byte `n`, then `k` complete arguments, then a last one. -/
def Chunked (c : CommandId) (n : UInt8) (k : Nat) (buf : Bytes) : Prop :=
  ∃ (chunks : List Bytes) (tail : Bytes),
    buf = c.toByte :: n :: (chunks.flatMap encodeArg ++ tail) ∧
    chunks.length = k ∧ (∀ a ∈ chunks, a.length < 2 ^ 32) ∧ LastReady tail

/-- Commands without any argument: only Stats. -/
def takesArguments (c : CommandId) : Prop := c ≠ .stats

end Hop.Spec
