import Verif.Spec.EdgeStore
import Verif.Graph.Capacity

/-
Specification vocabulary for growing, clearing and copying graphs (C13-C17, C57).
-/
namespace Verif.Props
open Verif Verif.Graph

/-- `d` shows a user the same graph as `g`: order, size, graph flags, free slots, every adjacency
list in both directions, every arc's neighbour and flags, every vertex's index and flags. -/
structure SameObs (g d : Graph) : Prop where
  size : d.N = g.N ∧ d.M = g.M ∧ d.flags = g.flags ∧ d.holes = g.holes
  lists : ∀ v, IsVertex g v → ∃ L, HasList g v L ∧ HasList d v L
  arcs : ∀ e, Live g e → d.getNbr e = g.getNbr e ∧ d.getDirection e = g.getDirection e ∧
    (d.E e).flags = (g.E e).flags
  data : ∀ v, IsVertex g v → (d.V v).index = (g.V v).index ∧ (d.V v).flags = (g.V v).flags

end Verif.Props
