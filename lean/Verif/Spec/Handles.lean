import Verif.Model.Handles
import Verif.Spec.PubSubThreads

/-! # Specification of subscriptions in the hands of users -/

namespace Hop.Spec

/-- Threads about to make the calls, a fresh manager, no subscriptions. -/
def subWorld (calls : List SubCall) : SubWorld :=
  { pool := subPool calls, cells := fun _ => .unmade, held := fun _ => ⟨0, 0, 0⟩ }

/-- `get` would find the subscription under some key of some session. -/
def Listed (w : SubWorld) (x : Nat) : Prop := ∃ k s, w.pool.mgr.get k s = some x

/-- A `remove_session` that is going on has yet to close the subscription. -/
def ToClose (w : SubWorld) (x : Nat) : Prop := ∃ l, .closing l ∈ w.pool.threads ∧ x ∈ l

/-- The subscription has been made. -/
def Known (w : SubWorld) (x : Nat) : Prop := x < w.pool.mgr.made

/-- Somebody closes the channel with the next step: a user who holds a pointer or an end of the channel, or a
`remove_session` that comes to it. -/
def Closes (w : SubWorld) (x : Nat) : SubStep → Prop
  | .close y => y = x ∧ w.held x ≠ ⟨0, 0, 0⟩
  | .call i => ∃ l, w.pool.threads[i]? = some (.closing (x :: l))
  | _ => False

/-- Nobody can get at one of the ends of the channel any more: the subscription is gone, and users hold no sender or no
receiver. -/
def Abandoned (w : SubWorld) (x : Nat) : Prop :=
  ¬ Listed w x ∧ ¬ ToClose w x ∧ (w.held x).pointers = 0 ∧ ((w.held x).senders = 0 ∨ (w.held x).receivers = 0)

end Hop.Spec
