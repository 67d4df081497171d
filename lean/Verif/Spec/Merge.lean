import Verif.Spec.EdgeStore
import Verif.Graph.Vertex

/-
Specification vocabulary for identifying and contracting (C10, C11, C56).
-/
namespace Verif.Props
open Verif Verif.Graph

/-- `w` is met as a neighbour when walking the list of `u`. -/
def Sees (g : Graph) (u w : Nat) : Prop := ∃ e, g.ArcAt u e ∧ g.getNbr e = some w

/-- What the caller of gp_IdentifyVertices(u, v, …) must provide: two different vertices, no two
arcs of `u` to the same vertex, no self loop at `v`, visited marks clear. -/
structure Mergeable (g : Graph) (u v : Nat) : Prop where
  vert : IsVertex g u ∧ IsVertex g v ∧ u ≠ v
  simple : ∀ e e', g.ArcAt u e → g.ArcAt u e' → g.getNbr e = g.getNbr e' → e = e'
  loopless : ¬ Sees g v v
  clear : ∀ w, IsVertex g w → g.getVisited w = some false

/-- `g'` is `g` with `v` merged into `u`: the list of `u` is `A`, then `K`, then `B`, where `K`
are the arcs of `v`, in their order, that do not lead to `u` or to a vertex `u` already sees;
`v` is isolated; other lists lose exactly the arcs to `v` of vertices that `u` already sees; arcs
that led to `v` lead to `u`. -/
structure Merged (g g' : Graph) (u v : Nat) (A K B : List Nat) : Prop where
  moved : ∃ L, HasList g v L ∧ K.Sublist L ∧
    ∀ e ∈ L, (e ∈ K ↔ ∀ w, g.getNbr e = some w → w ≠ u ∧ ¬ Sees g u w)
  lists : HasList g' u (A ++ K ++ B) ∧ HasList g' v []
  others : ∀ w, IsVertex g w → w ≠ u → w ≠ v → ∃ L L', HasList g w L ∧ HasList g' w L' ∧
    L'.Sublist L ∧ ∀ e ∈ L, (e ∈ L' ↔ ¬ (g.getNbr e = some v ∧ Sees g u w))
  ends : ∀ e, Live g' e → g'.getNbr e = if g.getNbr e = some v then some u else g.getNbr e
  frame : g'.N = g.N ∧ g'.M = g.M ∧ g'.arcCap = g.arcCap ∧ g'.holes = g.holes ∧ g'.flags = g.flags ∧
    (∀ e, (g'.E e).flags = (g.E e).flags) ∧
    ∀ w, (g'.V w).index = (g.V w).index ∧ (g'.V w).flags = (g.V w).flags

end Verif.Props
