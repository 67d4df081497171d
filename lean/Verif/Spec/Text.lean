import Verif.Spec.Adjacency

/-
What the text formats are expected to keep: the neighbours of every vertex in rotation order, and the direction of every edge.
-/
namespace Verif.Props
open Verif Verif.Graph

/-- The neighbours of a vertex with the direction of the arc (0, INONLY = 32, OUTONLY = 64), in rotation order. -/
def entries (g : Graph) (w : Nat) : Option (List (Nat × Nat)) := do
  (← g.walk false w).mapM fun e => do return (← g.getNbr e, ← g.getDirection e)

/-- A graph on the vertices 1 to `N` whose lists can be walked both ways, every arc having its twin at the other end, without
loops and parallel edges. (Nothing is said about virtual vertices.) -/
def SimpleLists (g : Graph) : Prop :=
  ∀ w, 1 ≤ w → w ≤ g.N → ∃ L, g.walk false w = some L ∧ g.walk true w = some L.reverse ∧
    (∃ l, neighbors g w = some l ∧ l.Nodup) ∧
    ∀ e ∈ L, ∃ u, g.getNbr e = some u ∧ 1 ≤ u ∧ u ≤ g.N ∧ u ≠ w ∧ g.getNbr (twin e) = some w ∧
      ∃ L', g.walk false u = some L' ∧ twin e ∈ L'

/-- No arc of the vertices 1 to `N` has a direction. -/
def NoDirections (g : Graph) : Prop :=
  ∀ w, 1 ≤ w → w ≤ g.N → ∃ l, entries g w = some l ∧ ∀ x ∈ l, x.2 = 0

/-- Every edge is undirected, or one of its arcs is INONLY and the other OUTONLY. -/
def Mixed (g : Graph) : Prop :=
  ∀ w, 1 ≤ w → w ≤ g.N → ∀ L, g.walk false w = some L → ∀ e ∈ L,
    (g.getDirection e = some 0 ∧ g.getDirection (twin e) = some 0) ∨
    (g.getDirection e = some 32 ∧ g.getDirection (twin e) = some 64) ∨
    (g.getDirection e = some 64 ∧ g.getDirection (twin e) = some 32)

/-- The same arcs with the same directions, in any order. -/
def SameEntries (g g' : Graph) : Prop :=
  g'.N = g.N ∧ ∀ w, 1 ≤ w → w ≤ g.N → ∃ l l', entries g w = some l ∧ entries g' w = some l' ∧ l'.Perm l

/-- The arcs that can be left by (not INONLY) are in the same order at every vertex. -/
def SameOutOrder (g g' : Graph) : Prop :=
  ∀ w, 1 ≤ w → w ≤ g.N → ∃ l l', entries g w = some l ∧ entries g' w = some l' ∧
    l'.filter (fun x => x.2 ≠ 32) = l.filter (fun x => x.2 ≠ 32)

/-- Digits of the number `x`, perhaps with zeros in front. -/
def IsNumeral (x : Nat) (d : List Nat) : Prop :=
  d ≠ [] ∧ (∀ c ∈ d, 48 ≤ c ∧ c ≤ 57) ∧ d.foldl (fun a c => 10 * a + (c - 48)) 0 = x

/-- Blanks and tabs. -/
def IsGap (p : List Nat) : Prop := ∀ c ∈ p, c = 32 ∨ c = 9

/-- Not the start of a digit. -/
def EndsNumeral (r : List Nat) : Prop := ∀ c ∈ r.head?, ¬ (48 ≤ c ∧ c ≤ 57)

/-- The characters of a line without the newline, at most 253 of them. -/
def IsLine (l : List Nat) : Prop := l.length ≤ 253 ∧ 10 ∉ l ∧ 0 ∉ l

/-- A line that starts with the number `x`. -/
def NumberLine (x : Nat) (l : List Nat) : Prop := ∃ p d r, l = p ++ (d ++ r) ∧ IsGap p ∧ IsNumeral x d ∧ EndsNumeral r

/-- A line that starts with the numbers of two vertices. -/
def EdgeLine (e : Nat × Nat) (l : List Nat) : Prop :=
  ∃ p d q d' r, l = p ++ (d ++ (q ++ (d' ++ r))) ∧ IsGap p ∧ IsNumeral e.1 d ∧ q ≠ [] ∧ IsGap q ∧ IsNumeral e.2 d' ∧ EndsNumeral r

/-- A file in LEDA format: "LEDA.GRAPH", the types of nodes and edges, the number of nodes, a line for each node, the number
of edges, a line for each edge that starts with its two nodes, and perhaps more. -/
def LedaText (n : Nat) (es : List (Nat × Nat)) (s : List Nat) : Prop :=
  ∃ l1 l2 l3 ln nodes lm edges rest, s = ([l1, l2, l3, ln] ++ nodes ++ [lm] ++ edges).flatMap (· ++ [10]) ++ rest ∧
    (∀ l ∈ [l1, l2, l3, ln] ++ nodes ++ [lm] ++ edges, IsLine l) ∧ "LEDA.GRAPH".toList.map Char.toNat <+: l1 ∧
    NumberLine n ln ∧ nodes.length = n ∧ NumberLine es.length lm ∧ List.Forall₂ EdgeLine es edges

end Verif.Props
