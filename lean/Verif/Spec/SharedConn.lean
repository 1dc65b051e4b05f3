import Verif.Model.SharedConn

/-! # What tasks sharing a connection are to do -/

namespace Hop.Spec
open Client.Server

/-- One task for each request, none of which has begun, on a connection nothing has been written to. -/
def sharing (reqs : List Bytes) (incoming : Bytes) : Shared :=
  { tasks := reqs.map fun _ => .waiting, wire := [], incoming := incoming }

/-- Nothing goes wrong: the connection takes what it is given and no task is dropped. -/
def Smooth (hs : List Happening) : Prop := ∀ h ∈ hs, ∃ i n, h = .go i n

/-- The task has written its request. -/
def Finished (t : Task) : Prop := t = .written ∨ ∃ r, t = .returned r

end Hop.Spec
