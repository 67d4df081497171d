import Verif.Spec.Tests
import Verif.Map.Perm

/-
Specification vocabulary for the embedder.
-/
namespace Verif.Props
open Verif Verif.Graph Equiv

/-- `t` is the graph `s` with its vertices renamed. The index of each vertex of `t` is its name in `s`. -/
structure SortedGraph (s t : PGraph) : Prop where
  order : t.g.N = s.g.N
  size : t.g.M = s.g.M
  names : ∀ a, IsPrimary s a → ∃ u, IsPrimary t u ∧ t.g.getIndex u = some a
  lists : ∀ u, IsPrimary t u → ∃ a l m l', IsPrimary s a ∧ t.g.getIndex u = some a ∧ neighbors t.g u = some l ∧
    l.mapM t.g.getIndex = some m ∧ neighbors s.g a = some l' ∧ m.Perm l'

/-- `t` is a part of the graph `s` with its vertices renamed: all vertices, but perhaps not all edges. The index of each
vertex of `t` is its name in `s`. -/
structure SortedPart (s t : PGraph) : Prop where
  order : t.g.N = s.g.N
  size : t.g.M ≤ s.g.M
  names : ∀ a, IsPrimary s a → ∃ u, IsPrimary t u ∧ t.g.getIndex u = some a
  lists : ∀ u, IsPrimary t u → ∃ a l m l', IsPrimary s a ∧ t.g.getIndex u = some a ∧ neighbors t.g u = some l ∧
    l.mapM t.g.getIndex = some m ∧ neighbors s.g a = some l' ∧ m.Subperm l'

/-- The lists `L`, as cyclic orders of arcs in `A`, are plane: they are cycles of a permutation which, together with the
exchange of the two arcs of each edge, satisfies Euler's formula `vertices - edges + faces = 2 · components`.
Arcs in no list count as ends of edges of their own. -/
def PlaneLists (A : Nat → Prop) (L : Nat → List Nat) : Prop :=
  ∃ σ α : Perm { e // A e }, (∀ d, (α d).1 = d.1 ^^^ 1) ∧
    (∀ x a b, Follows (L x) a.1 b.1 → σ a = b) ∧ (∀ d, (∀ x, d.1 ∉ L x) → σ d = d) ∧
    Map.cyc σ + Map.cyc α + Map.cyc (σ * α) = Nat.card { e // A e } + 2 * Map.cls (Map.joined σ α)

/-- The lists of `g`, those with `o x` read backwards, are a plane embedding of some of the arcs in `A`. Each arc is in
the list of the vertex its twin leads to, and each with its twin. -/
structure PlanePart (A : Nat → Prop) (g : Graph) (o : Nat → Bool) (L : Nat → List Nat) : Prop where
  walk : ∀ x, IsVertex g x → HasList g x (if o x then (L x).reverse else L x)
  arcs : ∀ x e, e ∈ L x → IsVertex g x ∧ A e ∧ g.getNbr (e ^^^ 1) = some x
  twins : ∀ x e, e ∈ L x → ∃ y, g.getNbr e = some y ∧ e ^^^ 1 ∈ L y
  nodup : ∀ x, (L x).Nodup
  plane : PlaneLists A L

end Verif.Props
