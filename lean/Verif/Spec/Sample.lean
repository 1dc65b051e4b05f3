import Verif.Model.Prog
import Verif.Model.Request

/-! A concrete environment for the examples beside the theorems. -/

namespace Hop.Spec

/-- Maps and sets are iterated backwards; float addition is some function. -/
def sampleEnv (m : Mode) : Env where
  mode := m
  fadd a b := ⟨a.bits + b.bits⟩
  fsub a b := ⟨a.bits - b.bits⟩
  mapOrd m := m.reverse
  mapOrd_perm m := m.reverse_perm
  setOrd s := s.reverse
  setOrd_perm s := s.reverse_perm
  spins := 3

/-- A request built with the public builder. -/
def call (c : CommandId) (kt : Option KeyType) (args : List Bytes) : Request :=
  ((Builder.newWithKeyType c kt).bytesAll .release args).2.intoRequest

/-- A database holding the given keys and no counters. -/
def sampleDb (l : List (Bytes × Value)) : Db := { keys := fun k => l.lookup k, ctrs := fun _ => none }

end Hop.Spec
