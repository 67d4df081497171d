import Verif.Spec.EdgeStore

/-
Specification vocabulary for reading and writing graphs: what a user's loop over the adjacency
lists prints.
-/
namespace Verif.Props
open Verif Verif.Graph

/-- The neighbours met by `e = gp_GetFirstArc(v); while (gp_IsArc(e)) { gp_GetNeighbor(e); e =
gp_GetNextArc(e) }`. -/
def neighbors (g : Graph) (w : Nat) : Option (List Nat) := do (← g.walk false w).mapM g.getNbr

/-- Every edge is undirected. -/
def Undirected (g : Graph) : Prop := ∀ e, Live g e → g.getDirection e = some 0

/-- The graph joins only primary vertices, has no loops and no parallel edges. -/
def IsSimple (g : Graph) : Prop :=
  ∀ w, IsVertex g w → ∃ l, neighbors g w = some l ∧ l.Nodup ∧ w ∉ l ∧ (∀ x ∈ l, x ≤ g.N) ∧
    (g.N < w → l = [])

/-- `v` is met in the adjacency list of `u`. -/
def Adjacent (g : Graph) (u v : Nat) : Prop := ∃ l, neighbors g u = some l ∧ v ∈ l

/-- Two graphs have the same order, the same number of edges and at every vertex the same
neighbours, with multiplicity. -/
def SameGraph (g g' : Graph) : Prop :=
  g'.N = g.N ∧ g'.M = g.M ∧ ∀ w, IsVertex g w →
    ∃ l l', neighbors g w = some l ∧ neighbors g' w = some l' ∧ l'.Perm l

end Verif.Props
