import Verif.Model.SessionGuards

/-! # What session guards are to do -/

namespace Hop.Spec

/-- Threads that have not begun, holding nothing. -/
def attending (progs : List SProg) (m : SessionMgr) : SPool :=
  { threads := progs.map fun q => { held := [], call := none, prog := q }, mgr := m }

/-- The thread has ended and keeps no guard. -/
def Departed (t : SThread) : Prop := t.prog = .done ∧ t.held = [] ∧ t.call = none

/-- The thread can do nothing before it gets the lock of this entry: it is removing it, or adding a session under it. -/
inductive Needs : SThread → UInt32 → Prop
  | remove {held call id next} : Needs ⟨held, call, .remove id next⟩ id
  | add {held token next s k} : Needs ⟨held, some (.keyed s k), .add token next⟩ k

/-- Each of these threads needs the lock of an entry that shares it with an entry one of them has locked. -/
def Entangled (shard : UInt32 → Nat) (p : SPool) (s : List Nat) : Prop :=
  ∀ i ∈ s, ∃ (t : SThread) (w : UInt32) (j : Nat) (u : SThread) (g : UInt32),
    p.threads[i]? = some t ∧ Needs t w ∧ j ∈ s ∧ p.threads[j]? = some u ∧ g ∈ u.locks ∧ shard g = shard w

/-- The thread is not within an addition, or has only begun one: it has not read the number to add under, or that number
is `n`. -/
inductive NotYet (n : UInt32) : SThread → Prop
  | idle {held prog} : NotYet n ⟨held, none, prog⟩
  | made {held token next s} : NotYet n ⟨held, some (.made s), .add token next⟩
  | keyed {held token next s} : NotYet n ⟨held, some (.keyed s n), .add token next⟩

/-- The program makes calls only while it keeps no guard. -/
def Considerate : List UInt32 → SProg → Prop
  | _, .done => True
  | held, .add _ next => held = [] ∧ ∀ k s, Considerate [k] (next k s)
  | held, .remove _ next => held = [] ∧ ∀ b, Considerate held (next b)
  | held, .look _ next => ∀ o, Considerate held (next o)
  | held, .write _ _ next => Considerate held next
  | held, .drop id next => Considerate (held.erase id) next

end Hop.Spec
