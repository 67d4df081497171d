import Verif.Spec.DFS
import Verif.Spec.Adjacency
import Verif.DFS.Reach

/-
Specification vocabulary for the tests of embedding results.
-/
namespace Verif.Props
open Verif Verif.Graph Verif.DFS

/-- The adjacency lists, edge store, stack capacities and numbering of `s` are in order, as they are for every graph
made with the calls of `PReach` (see `consistent_of_reach`). A graph handed to the tests need not have been made that way:
the embedder links its arcs itself. -/
def Consistent (s : PGraph) : Prop := ∃ rot, PInv s rot

/-- `s'` is `s` with some vertex visited marks changed. -/
def OnlyVisited (s s' : PGraph) : Prop :=
  s'.VI = s.VI ∧ s'.g = { s.g with V := s'.g.V } ∧
    ∀ v, s'.g.V v = { s.g.V v with flags := (s'.g.V v).flags } ∧ (s'.g.V v).flags / 2 = (s.g.V v).flags / 2

/-- The name a vertex had before the vertices were sorted by number. -/
def IsName (s : PGraph) (u a : Nat) : Prop := if s.g.sortedByDfi then s.g.getIndex u = some a else u = a

/-- The vertices named `a` and `b` are adjacent. -/
def NamedAdjacent (s : PGraph) (a b : Nat) : Prop := ∃ u w, IsName s u a ∧ IsName s w b ∧ Adjacent s.g u w

/-- The same adjacencies: of the vertices themselves if both graphs or neither are sorted by vertex numbers, otherwise of
the names the vertices had before sorting. -/
def SameAdjacencies (s t : PGraph) : Prop :=
  if s.g.sortedByDfi = t.g.sortedByDfi then ∀ u w, Adjacent s.g u w ↔ Adjacent t.g u w
  else ∀ a b, NamedAdjacent s a b ↔ NamedAdjacent t a b

/-- The adjacencies of `s` are adjacencies of `t`, in the same sense. -/
def SubAdjacencies (s t : PGraph) : Prop :=
  if s.g.sortedByDfi = t.g.sortedByDfi then ∀ u w, Adjacent s.g u w → Adjacent t.g u w
  else ∀ a b, NamedAdjacent s a b → NamedAdjacent t a b

/-- `y` comes after `x` in the list, the first element after the last. -/
def Follows (L : List Nat) (x y : Nat) : Prop :=
  (∃ A B, L = A ++ x :: y :: B) ∨ (L.getLast? = some x ∧ L.head? = some y)

/-- The arc `b` comes after the arc `a` on a facial walk: it follows the other arc of the edge of `a` in the adjacency list
of the vertex to which `a` leads. -/
def FaceStep (g : Graph) (a b : Nat) : Prop := ∃ v L, IsVertex g v ∧ HasList g v L ∧ Follows L (a ^^^ 1) b

/-- `b` is on the facial walk of `a`. -/
inductive SameFace (g : Graph) : Nat → Nat → Prop
  | refl (a : Nat) : SameFace g a a
  | step {a b c : Nat} : SameFace g a b → FaceStep g b c → SameFace g a c

/-- `l` contains exactly one element of each class of the relation `r` on `dom`. -/
structure Transversal (dom : Nat → Prop) (r : Nat → Nat → Prop) (l : List Nat) : Prop where
  mem : ∀ x ∈ l, dom x
  apart : l.Pairwise fun a b => ¬ r a b
  all : ∀ x, dom x → ∃ a ∈ l, r a x

/-- `F` are representatives of the facial walks, `C` of the connected components and `D` of the components with edges. -/
structure Counted (s : PGraph) (F C D : List Nat) : Prop where
  faces : Transversal (Live s.g) (SameFace s.g) F
  comps : Transversal (IsPrimary s) (Joined s.g) C
  edged : Transversal (fun v => IsPrimary s v ∧ ∃ w, Adjacent s.g v w) (Joined s.g) D

/-- The adjacency lists, as cyclic orders around the vertices, are a plane embedding: Euler's formula
vertices - edges + faces = 2 holds, summed over the components with edges. -/
def PlaneEmbedding (s : PGraph) : Prop :=
  ∃ F C D, Counted s F C D ∧ F.length + s.g.N = s.g.M + C.length + D.length

/-- Every component contains a vertex recorded as the root of a tree. -/
def Rooted (s : PGraph) : Prop :=
  ∀ u, IsPrimary s u → ∃ r, IsPrimary s r ∧ s.getParent r = some 0 ∧ Joined s.g u r

/-- Every component contains exactly one. -/
def RootedOnce (s : PGraph) : Prop :=
  ∀ u, IsPrimary s u → ∃ r, (IsPrimary s r ∧ s.getParent r = some 0 ∧ Joined s.g u r) ∧
    ∀ r', IsPrimary s r' → s.getParent r' = some 0 → Joined s.g u r' → r' = r

/-- Of every component with edges, one facial walk meets all vertices. -/
def OneFace (s : PGraph) : Prop :=
  ∀ u, IsPrimary s u → (∃ w, Adjacent s.g u w) →
    ∃ a, Live s.g a ∧ ∀ v, Joined s.g u v → ∃ b, SameFace s.g a b ∧ s.g.ArcAt v b

/-- The facial walk of the first arc of each root meets all vertices joined to the root. -/
def RootFace (s : PGraph) : Prop :=
  ∀ r, IsPrimary s r → s.getParent r = some 0 → ∀ v, Joined s.g r v →
    v = r ∨ ∃ L a b, HasList s.g r L ∧ L.head? = some a ∧ SameFace s.g a b ∧ s.g.ArcAt v b

/-- Consecutive elements. -/
def links (l : List Nat) : List (Nat × Nat) := l.zip l.tail

/-- The edges of the graph that replaces each edge `p` of `E` by a path from `branch p.1` to `branch p.2` with the inner
vertices `path p`. -/
def steps (branch : Nat → Nat) (path : Nat × Nat → List Nat) (E : List (Nat × Nat)) : List (Nat × Nat) :=
  E.flatMap fun p => links (branch p.1 :: path p ++ [branch p.2])

/-- The neighbours of `w` by a list of edges. -/
def around (st : List (Nat × Nat)) (w : Nat) : List Nat :=
  ((st.filter fun p => p.1 = w).map fun p => p.2) ++ ((st.filter fun p => p.2 = w).map fun p => p.1)

/-- `g` consists of a subdivision of the graph with the vertices `0, …, n - 1` and the edges `E`, and of isolated
vertices. -/
def IsSubdivision (g : Graph) (n : Nat) (E : List (Nat × Nat)) : Prop :=
  ∃ branch path, ((List.range n).map branch ++ E.flatMap path).Nodup ∧
    (∀ w ∈ (List.range n).map branch ++ E.flatMap path, 1 ≤ w ∧ w ≤ g.N) ∧
    ∀ w, IsVertex g w → ∃ l, neighbors g w = some l ∧ l.Perm (around (steps branch path E) w)

/-- No vertex is adjacent to itself. -/
def NoLoops (g : Graph) : Prop := ∀ u, ¬ Adjacent g u u

/-- The edges of the complete graphs K4 and K5 and of the complete bipartite graphs K3,3 and K2,3. -/
def edgesK4 : List (Nat × Nat) := [(0, 1), (0, 2), (0, 3), (1, 2), (1, 3), (2, 3)]
def edgesK5 : List (Nat × Nat) := [(0, 1), (0, 2), (0, 3), (0, 4), (1, 2), (1, 3), (1, 4), (2, 3), (2, 4), (3, 4)]
def edgesK33 : List (Nat × Nat) := [(0, 3), (0, 4), (0, 5), (1, 3), (1, 4), (1, 5), (2, 3), (2, 4), (2, 5)]
def edgesK23 : List (Nat × Nat) := [(0, 2), (0, 3), (0, 4), (2, 1), (3, 1), (4, 1)]

end Verif.Props
