import Verif.Spec.DFS
import Verif.Spec.EdgeStore
import Verif.Draw.Model

/-
Specification vocabulary for drawings: visibility representations.
-/
namespace Verif.Props
open Verif Verif.Graph Verif.Draw

/-- The row, the first and the last column of a vertex. -/
def vrow (c : Ctx) (v : Nat) : Int := (c.VI v).pos
def vleft (c : Ctx) (v : Nat) : Int := (c.VI v).start
def vright (c : Ctx) (v : Nat) : Int := (c.VI v).stop
/-- The column, the first and the last row of an edge, given by one of its arcs. -/
def ecol (c : Ctx) (e : Nat) : Int := (c.E e).pos
def etop (c : Ctx) (e : Nat) : Int := (c.E e).start
def ebottom (c : Ctx) (e : Nat) : Int := (c.E e).stop

/-- The vertical segment of the edge `e` meets the horizontal segment of the vertex `v`. -/
def Meets (c : Ctx) (e v : Nat) : Prop :=
  (etop c e ≤ vrow c v ∧ vrow c v ≤ ebottom c e) ∧ vleft c v ≤ ecol c e ∧ ecol c e ≤ vright c v

/-- The data of `c` are a visibility representation of `g` in N rows and M columns. -/
structure Visibility (g : Graph) (c : Ctx) : Prop where
  /-- the vertices lie in different rows, unless there are no edges of the first N -/
  rows : 0 < g.M → ∀ v, 1 ≤ v → v ≤ g.N → 0 ≤ vrow c v ∧ vrow c v < g.N
  apart : ∀ v w, 1 ≤ v → v ≤ g.N → 1 ≤ w → w ≤ g.N → vrow c v = vrow c w → v = w
  /-- unless there are no edges, a vertex has some columns -/
  segments : 0 < g.M → ∀ v, 1 ≤ v → v ≤ g.N → 0 ≤ vleft c v ∧ vleft c v ≤ vright c v ∧ vright c v < g.M
  /-- both arcs of an edge tell the same -/
  arcs : ∀ e, Live g e → c.E (e ^^^ 1) = c.E e
  /-- the edges lie in different columns -/
  columns : ∀ e, Live g e → 0 ≤ ecol c e ∧ ecol c e < g.M
  distinct : ∀ e f, Live g e → Live g f → ecol c e = ecol c f → f = e ∨ f = e ^^^ 1
  /-- an edge runs from the row of one of its ends to the row of the other -/
  runs : ∀ u e w, ArcTo g u e w → etop c e = min (vrow c u) (vrow c w) ∧ ebottom c e = max (vrow c u) (vrow c w)
  /-- it meets its ends and no other vertex -/
  meets : ∀ u e w v, ArcTo g u e w → 1 ≤ v → v ≤ g.N → (Meets c e v ↔ v = u ∨ v = w)

/-- `g'` is `g` with some visited marks of vertices and edge records changed. -/
def OnlyMarks (g g' : Graph) : Prop :=
  g' = { g with V := g'.V, E := g'.E } ∧
    (∀ v, g'.V v = { g.V v with flags := (g'.V v).flags } ∧ (g'.V v).flags / 2 = (g.V v).flags / 2) ∧
    ∀ e, g'.E e = { g.E e with flags := (g'.E e).flags } ∧ (g'.E e).flags / 2 = (g.E e).flags / 2

/-- The text of the label of `v`: its number in decimal, counted from 0 if the graph was read that way. -/
def labelOf (g : Graph) (v : Nat) : List Nat := Text.dec (if g.flags &&& 8 ≠ 0 then v - 1 else v)
/-- The middle column of `v`. -/
def vmid (c : Ctx) (v : Nat) : Int := (vleft c v + vright c v) / 2
/-- The label is not longer than the segment of the vertex. -/
def Fits (g : Graph) (c : Ctx) (v : Nat) : Prop := ((labelOf g v).length : Int) ≤ vright c v - vleft c v + 1
/-- Written from the middle column on, the label ends in the segment. -/
def Inside (g : Graph) (c : Ctx) (v : Nat) : Prop := vmid c v + ((labelOf g v).length : Int) ≤ vright c v + 1
/-- Written from the middle column on, the label ends in the row. -/
def InRow (g : Graph) (c : Ctx) (v : Nat) : Prop := vmid c v + ((labelOf g v).length : Int) ≤ g.M

/-- The character in row `r` and column `k` of a text with lines of length `M`. -/
def Shown (b : Buf) (M : Nat) (r k x : Nat) : Prop := b.at_ (r * (M + 1) + k) = some x

/-- The place belongs to the label of `v`: to the characters from the middle column on, which may run into the next
line, or, for a label that does not fit, to the middle column in the row of `v` and the next one. -/
def InLabel (g : Graph) (c : Ctx) (v r k : Nat) : Prop :=
  (Fits g c v ∧ 2 * vrow c v * (g.M + 1) + vmid c v ≤ (r : Int) * (g.M + 1) + k ∧
    (r : Int) * (g.M + 1) + k < 2 * vrow c v * (g.M + 1) + vmid c v + (labelOf g v).length) ∨
  (¬ Fits g c v ∧ ((r : Int) = 2 * vrow c v ∨ (r : Int) = 2 * vrow c v + 1) ∧ (k : Int) = vmid c v)

/-- `b` is a string that shows the drawing `c` of `g`: two lines for each row. -/
structure Rendition (g : Graph) (c : Ctx) (b : Buf) : Prop where
  /-- a terminated string of 2N lines of M characters -/
  size : b.size = (g.M + 1) * 2 * g.N + 1
  ends : b.at_ ((g.M + 1) * 2 * g.N) = some 0
  full : ∀ i < (g.M + 1) * 2 * g.N, ∃ x, b.at_ i = some x ∧ x ≠ 0
  /-- each line ends with a newline, except where a label runs over the end of the line -/
  odd : ∀ r < g.N, Shown b g.M (2 * r + 1) g.M 10
  even : ∀ v, 1 ≤ v → v ≤ g.N → (Fits g c v → InRow g c v) → Shown b g.M (2 * (vrow c v).toNat) g.M 10
  /-- edges are bars between the rows of their ends -/
  edge : ∀ e, Live g e → ∀ r : Nat, 2 * etop c e < r → (r : Int) < 2 * ebottom c e → Shown b g.M r (ecol c e).toNat 124
  /-- vertices are rows of dashes with the label from the middle on -/
  dash : ∀ v, 1 ≤ v → v ≤ g.N → ∀ k : Nat, vleft c v ≤ k → (k : Int) ≤ vright c v →
    ¬ InLabel g c v (2 * (vrow c v).toNat) k → Shown b g.M (2 * (vrow c v).toNat) k 45
  label : ∀ v, 1 ≤ v → v ≤ g.N → Fits g c v → ∀ j x : Nat, (labelOf g v)[j]? = some x → vmid c v + j ≤ vright c v →
    Shown b g.M (2 * (vrow c v).toNat) ((vmid c v).toNat + j) x
  /-- the rest is blank -/
  blank : ∀ r < 2 * g.N, ∀ k < g.M,
    (∀ v, 1 ≤ v → v ≤ g.N → ¬ ((r : Int) = 2 * vrow c v ∧ vleft c v ≤ k ∧ (k : Int) ≤ vright c v) ∧ ¬ InLabel g c v r k) →
    (∀ e, Live g e → ¬ (2 * etop c e < r ∧ (r : Int) < 2 * ebottom c e ∧ ecol c e = k)) → Shown b g.M r k 32

/-- `x` lies strictly between `a` and `b`. -/
def StrictlyBetween (a x b : Int) : Prop := (a < x ∧ x < b) ∨ (b < x ∧ x < a)

/-- What is recorded about the placement of a vertex next to its parent: beyond the parent seen from the ancestor, not yet
known, between the parent and the ancestor (graphDrawPlanar.private.h 40-44). -/
def MarkedBeyond (c : Ctx) (v : Nat) : Prop := (c.VI v).flag = 0
def MarkedTie (c : Ctx) (v : Nat) : Prop := (c.VI v).flag = 1
def MarkedBetween (c : Ctx) (v : Nat) : Prop := (c.VI v).flag = 2
/-- The placement of `v` is recorded with respect to the child `a` of the ancestor. -/
def MarkedFrom (c : Ctx) (v a : Nat) : Prop := (c.VI v).ancestorChild = a
/-- Nothing has been recorded for `v`. -/
def Unmarked (c : Ctx) (v : Nat) : Prop := MarkedBeyond c v ∧ MarkedFrom c v 0

/-- The rows of the `N` vertices are 0 to `N - 1`, each once. -/
structure RowsFilled (N : Nat) (c : Ctx) : Prop where
  range : ∀ v, 1 ≤ v → v ≤ N → 0 ≤ vrow c v ∧ vrow c v < N
  apart : ∀ v w, 1 ≤ v → v ≤ N → 1 ≤ w → w ≤ N → vrow c v = vrow c w → v = w
  all : ∀ k : Nat, k < N → ∃ v, 1 ≤ v ∧ v ≤ N ∧ vrow c v = k

/-- The columns of the edges are 0 to M - 1, each once. -/
structure ColumnsFilled (g : Graph) (c : Ctx) : Prop where
  range : ∀ e, Live g e → 0 ≤ ecol c e ∧ ecol c e < g.M
  apart : ∀ e f, Live g e → Live g f → ecol c e = ecol c f → f = e ∨ f = e ^^^ 1
  all : ∀ k : Nat, k < g.M → ∃ e, Live g e ∧ ecol c e = k

/-- The vertices fill the rows and the edges the columns; a vertex reaches from its first to its last edge, a vertex without
edges has column 0; an edge reaches from one end to the other. -/
structure Layout (g : Graph) (c : Ctx) : Prop where
  rows : RowsFilled g.N c
  columns : ColumnsFilled g c
  arcs : ∀ e, Live g e → c.E (e ^^^ 1) = c.E e
  covers : ∀ v e w, ArcTo g v e w → vleft c v ≤ ecol c e ∧ ecol c e ≤ vright c v
  first : ∀ v e w, ArcTo g v e w → ∃ e' w', ArcTo g v e' w' ∧ vleft c v = ecol c e'
  last : ∀ v e w, ArcTo g v e w → ∃ e' w', ArcTo g v e' w' ∧ vright c v = ecol c e'
  single : ∀ v, 1 ≤ v → v ≤ g.N → (∀ e w, ¬ ArcTo g v e w) → vleft c v = 0 ∧ vright c v = 0
  runs : ∀ u e w, ArcTo g u e w → etop c e = min (vrow c u) (vrow c w) ∧ ebottom c e = max (vrow c u) (vrow c w)

/-- Every vertex but the roots has a neighbour in a higher row. -/
def AllHang (s : PGraph) (par : Nat → Nat) (c : Ctx) : Prop :=
  ∀ v, IsPrimary s v → par v ≠ 0 → ∃ u e, ArcTo s.g u e v ∧ vrow c u < vrow c v

/-- Every vertex has the same drawing data in `c'` as in `c`. -/
def SameVertexData (g : Graph) (c c' : Ctx) : Prop :=
  ∀ v, 1 ≤ v → v ≤ g.N → vrow c' v = vrow c v ∧ vleft c' v = vleft c v ∧ vright c' v = vright c v

/-- Every edge has the same drawing data in `c'`, a drawing of `g'`, as in `c`, a drawing of `g`. -/
def SameEdgeData (g : Graph) (c : Ctx) (g' : Graph) (c' : Ctx) : Prop :=
  ∀ u e e' w, ArcTo g u e w → ArcTo g' u e' w → c'.E e' = c.E e

end Verif.Props
