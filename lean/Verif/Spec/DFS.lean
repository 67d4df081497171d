import Verif.Graph.History
import Verif.DFS.Model

/-
Specification vocabulary for depth-first search trees, given by a parent function (0: no parent).
-/
namespace Verif.Props
open Verif Verif.Graph

/-- `a` is `b` or an ancestor of `b`. -/
inductive AncEq (par : Nat → Nat) : Nat → Nat → Prop
  | refl (a : Nat) : AncEq par a a
  | up {a b : Nat} : par b ≠ 0 → AncEq par a (par b) → AncEq par a b

/-- `a` is a proper ancestor of `b`. -/
def Anc (par : Nat → Nat) (a b : Nat) : Prop := par b ≠ 0 ∧ AncEq par a (par b)

theorem Anc.eq {par a b} (h : Anc par a b) : AncEq par a b := .up h.1 h.2

theorem AncEq.cases {par a b} (h : AncEq par a b) : a = b ∨ Anc par a b := by
  cases h with
  | refl => exact Or.inl rfl
  | up h1 h2 => exact Or.inr ⟨h1, h2⟩

theorem AncEq.trans {par a b c} (h : AncEq par a b) (h' : AncEq par b c) : AncEq par a c := by
  induction h' with
  | refl => exact h
  | up h1 _ ih => exact .up h1 ih

/-- `b` is reached from `a` along arcs: `arcs u` are the arcs of `u`, `hd e` the end of `e`. -/
inductive Linked (arcs : Nat → List Nat) (hd : Nat → Nat) : Nat → Nat → Prop
  | refl (a : Nat) : Linked arcs hd a a
  | step {a b : Nat} {e : Nat} : Linked arcs hd a b → e ∈ arcs b → Linked arcs hd a (hd e)

/-- Iterating over the adjacency list of `u` meets the arc `e`, which leads to `w`. -/
def ArcTo (g : Graph) (u e w : Nat) : Prop := g.ArcAt u e ∧ g.getNbr e = some w

/-- `b` is in the connected component of `a`. -/
inductive Joined (g : Graph) : Nat → Nat → Prop
  | refl (a : Nat) : Joined g a a
  | step {a b c e : Nat} : Joined g a b → ArcTo g b e c → Joined g a c

/-- A primary vertex: the vertices of the input graph. -/
def IsPrimary (s : PGraph) (u : Nat) : Prop := 1 ≤ u ∧ u ≤ s.g.N

/-- The edge types a depth-first search gives the two arcs of an edge from `u` to `w`: CHILD (14) and PARENT (6)
for a tree edge, FORWARD (10) and BACK (2) for an edge between an ancestor and a descendant, none for a loop. -/
def RightTypes (s : PGraph) (par : Nat → Nat) (u e w : Nat) : Prop :=
  (u = w ∧ s.g.getType e = some 0 ∧ s.g.getType (twin e) = some 0) ∨
  (u ≠ w ∧ ((par w = u ∧ s.g.getType e = some 14 ∧ s.g.getType (twin e) = some 6) ∨
    (par u = w ∧ s.g.getType e = some 6 ∧ s.g.getType (twin e) = some 14) ∨
    (Anc par u w ∧ s.g.getType e = some 10 ∧ s.g.getType (twin e) = some 2) ∨
    (Anc par w u ∧ s.g.getType e = some 2 ∧ s.g.getType (twin e) = some 10)))

/-- `num` and `par` describe a depth-first search of the graph, whose parents and edge types are recorded in
the graph. -/
structure Forest (s : PGraph) (num par : Nat → Nat) : Prop where
  /-- the recorded parents -/
  parent : ∀ u, IsPrimary s u → s.getParent u = some (par u)
  /-- numbers are 1..N -/
  range : ∀ u, IsPrimary s u → 1 ≤ num u ∧ num u ≤ s.g.N
  /-- and pairwise different -/
  inj : ∀ u w, IsPrimary s u → IsPrimary s w → num u = num w → u = w
  /-- a parent is a neighbour with a smaller number, by exactly one tree arc -/
  up : ∀ u, IsPrimary s u → par u ≠ 0 → IsPrimary s (par u) ∧ num (par u) < num u ∧
    ∃ e, (ArcTo s.g (par u) e u ∧ s.g.getType e = some 14) ∧
      ∀ e', ArcTo s.g (par u) e' u → s.g.getType e' = some 14 → e' = e
  /-- every component has exactly one root -/
  root : ∀ u, IsPrimary s u → ∃ r, (IsPrimary s r ∧ par r = 0 ∧ Joined s.g u r) ∧
    ∀ r', IsPrimary s r' → par r' = 0 → Joined s.g u r' → r' = r
  /-- edges join primary vertices -/
  ends : ∀ u e w, ArcTo s.g u e w → IsPrimary s u ∧ IsPrimary s w
  /-- no cross edges -/
  related : ∀ u e w, ArcTo s.g u e w → AncEq par u w ∨ AncEq par w u
  /-- edge types -/
  types : ∀ u e w, ArcTo s.g u e w → RightTypes s par u e w
  /-- the vertices of a subtree have consecutive numbers -/
  consecutive : ∀ u w x, IsPrimary s u → IsPrimary s w → IsPrimary s x → AncEq par u x → num u ≤ num w →
    num w ≤ num x → AncEq par u w

/-- `s'` is `s` with every vertex `v` renamed to `σ v`. -/
structure Renamed (s s' : PGraph) (σ : Nat → Nat) : Prop where
  order : s'.g.N = s.g.N
  edges : s'.g.M = s.g.M
  /-- primary vertices are permuted -/
  range : ∀ u, IsPrimary s u → IsPrimary s (σ u)
  inj : ∀ u w, IsPrimary s u → IsPrimary s w → σ u = σ w → u = w
  /-- each vertex keeps its arcs, in both directions in the same order -/
  lists : ∀ u, IsPrimary s u → ∀ b, s'.g.walk b (σ u) = s.g.walk b u
  /-- the ends of arcs are renamed -/
  heads : ∀ u e w, ArcTo s.g u e w → ArcTo s'.g (σ u) e (σ w)
  /-- edge flags: types and directions -/
  edgeFlags : ∀ e, (s'.g.rdE e).map (·.flags) = (s.g.rdE e).map (·.flags)
  /-- the recorded parents are renamed -/
  parents : ∀ u p, IsPrimary s u → s.getParent u = some p → s'.getParent (σ u) = some (if p = 0 then 0 else σ p)
  /-- other vertex information moves with the vertex -/
  info : ∀ u, IsPrimary s u → (s'.rdVI (σ u)).map (fun r => { r with parent := 0 }) =
    (s.rdVI u).map (fun r => { r with parent := 0 })
  /-- vertex flags other than the visited mark move with the vertex -/
  vertFlags : ∀ u, IsPrimary s u → (s'.g.rdV (σ u)).map (·.flags / 2) = (s.g.rdV u).map (·.flags / 2)
  /-- the old name is the new index -/
  index : ∀ u, IsPrimary s u → s'.g.getIndex (σ u) = some u

/-- `l` is the least ancestor of `u`: the least of `u` and the vertices adjacent to `u` by a BACK (2) arc. -/
def IsLeastAncestor (s : PGraph) (u l : Nat) : Prop :=
  (l = u ∨ ∃ e, ArcTo s.g u e l ∧ s.g.getType e = some 2) ∧
    l ≤ u ∧ ∀ e w, ArcTo s.g u e w → s.g.getType e = some 2 → l ≤ w

/-- `l` is the lowpoint of `u`: the least of the least ancestors of `u` and its descendants. -/
def IsLowpoint (s : PGraph) (par : Nat → Nat) (u l : Nat) : Prop :=
  (∃ w, AncEq par u w ∧ IsLeastAncestor s w l) ∧
    ∀ w a, IsPrimary s w → AncEq par u w → IsLeastAncestor s w a → l ≤ a

/-- The numbering, if there is one, describes the graph as it is now: the graph has not been numbered, or the vertex
numbers (in the index, or the names themselves if the vertices are sorted) and parents form a depth-first search
forest. -/
def Current (s : PGraph) : Prop :=
  s.g.dfsNumbered = false ∨
  (s.g.dfsNumbered = true ∧ s.g.sortedByDfi = false ∧ ∃ num par, Forest s num par ∧
    ∀ u, IsPrimary s u → s.g.getIndex u = some (num u)) ∨
  (s.g.dfsNumbered = true ∧ s.g.sortedByDfi = true ∧ ∃ par, Forest s id par)

/-- `g'` is the graph `g` with every vertex `v` renamed to `σ v`: order, number of edges, arcs of each vertex in the
same order, ends of arcs. -/
structure Relabelled (g g' : Graph) (σ : Nat → Nat) : Prop where
  order : g'.N = g.N
  edges : g'.M = g.M
  range : ∀ u, 1 ≤ u → u ≤ g.N → 1 ≤ σ u ∧ σ u ≤ g.N
  inj : ∀ u w, 1 ≤ u → u ≤ g.N → 1 ≤ w → w ≤ g.N → σ u = σ w → u = w
  lists : ∀ u, 1 ≤ u → u ≤ g.N → ∀ b, g'.walk b (σ u) = g.walk b u
  heads : ∀ u e w, ArcTo g u e w → ArcTo g' (σ u) e (σ w)

/-- Same graph: order, number of edges, arcs of each vertex in the same order, ends of arcs. -/
def SameArcs (g g' : Graph) : Prop :=
  g'.N = g.N ∧ g'.M = g.M ∧ (∀ b u, g'.walk b u = g.walk b u) ∧ ∀ e, g'.getNbr e = g.getNbr e

end Verif.Props
