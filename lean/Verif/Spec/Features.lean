import Verif.Spec.Tests

/-
Specification of the homeomorph searches.
-/
namespace Verif.Props
open Verif

/-- The graph a search looks for, by the embedFlags of the search (graph.h 86-88): number of vertices and edges. -/
def soughtGraph (flags : Nat) : Option (Nat × List (Nat × Nat)) :=
  if flags = 16 + 2 then some (5, edgesK23)
  else if flags = 32 + 2 then some (4, edgesK4)
  else if flags = 64 + 1 then some (6, edgesK33)
  else none

end Verif.Props
