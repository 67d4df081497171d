import Verif.Basic

/-
Model of the edge store of a graph: the vertex and edge arrays, the free-slot stack and the
functions that add, insert, delete, hide and restore edges.

Conventions.
* `Option` results: `none` is undefined behaviour (access outside an array, a link index other
  than 0/1) or a loop that does not stop.
* Link index `false` is C's link[0] (next / first), `true` is link[1] (prev / last).
-/
namespace Verif

/-- C return codes (c/graphLib/lowLevelUtils/appconst.h: OK 1, NOTOK 0, NONEMBEDDABLE -1). -/
inductive Res | ok | notok | nonembeddable
  deriving DecidableEq, Repr

/-- `edgeRec`, graphStructures.h 59-64. `next` is link[0], `prev` is link[1]. -/
structure ERec where
  next : Nat := 0
  prev : Nat := 0
  nbr : Nat := 0
  flags : Nat := 0
  deriving DecidableEq, Repr

/-- `vertexRec`, graphStructures.h 205-210. `first` is link[0], `last` is link[1]. -/
structure VRec where
  first : Nat := 0
  last : Nat := 0
  index : Nat := 0
  flags : Nat := 0
  deriving DecidableEq, Repr

/-- `link[b]` of an edge record. -/
def ERec.link (r : ERec) (b : Bool) : Nat := if b then r.prev else r.next
/-- Assign `link[b]` of an edge record. -/
def ERec.setLink (r : ERec) (b : Bool) (x : Nat) : ERec :=
  if b then { r with prev := x } else { r with next := x }
/-- `link[b]` of a vertex record. -/
def VRec.link (r : VRec) (b : Bool) : Nat := if b then r.last else r.first
/-- Assign `link[b]` of a vertex record. -/
def VRec.setLink (r : VRec) (b : Bool) (x : Nat) : VRec :=
  if b then { r with last := x } else { r with first := x }

/-- `baseGraphStructure`, graphStructures.h 555-574, restricted to the edge store.
`N` primary vertices 1..N and `NV = N` virtual vertices N+1..2N (gp_InitGraph sets NV = N,
graphUtils.c 203-). Arrays are total functions; the allocated sizes are `vSize` and `eSize`.
`holes` is `edgeHoles`, `stack` is `theStack`, both with the top first. Simplifications: the
per-vertex planarity fields (vertexInfo, extFace, the list collections) are modelled in the
modules that need them; stack capacities are kept as explicit numbers. -/
structure Graph where
  N : Nat
  M : Nat := 0
  arcCap : Nat
  V : Nat → VRec := fun _ => {}
  E : Nat → ERec := fun _ => {}
  holes : List Nat := []
  holesCap : Nat
  stack : List Nat := []
  stackCap : Nat
  flags : Nat := 0

namespace Graph

/-- `gp_VertexIndexBound`: 1 + N + N (graphStructures.h 231-232). -/
def vSize (g : Graph) : Nat := 1 + g.N + g.N
/-- `gp_EdgeIndexBound`: 2 + arcCapacity (graphStructures.h 81). -/
def eSize (g : Graph) : Nat := 2 + g.arcCap
/-- `gp_EdgeInUseIndexBound` (graphStructures.h 82). -/
def inUse (g : Graph) : Nat := 2 + (g.M + g.holes.length) * 2

end Graph

/-- `gp_GetTwinArc`: xor with 1 (graphStructures.h 86). -/
def twin (e : Nat) : Nat := e ^^^ 1

namespace Graph

/-- Read `E[e]`, undefined outside the array. -/
def rdE (g : Graph) (e : Nat) : Option ERec := if e < g.eSize then some (g.E e) else none
/-- Write `E[e]`, undefined outside the array. -/
def wrE (g : Graph) (e : Nat) (r : ERec) : Option Graph :=
  if e < g.eSize then some { g with E := Function.update g.E e r } else none
/-- Read `V[v]`, undefined outside the array. -/
def rdV (g : Graph) (v : Nat) : Option VRec := if v < g.vSize then some (g.V v) else none
/-- Write `V[v]`, undefined outside the array. -/
def wrV (g : Graph) (v : Nat) (r : VRec) : Option Graph :=
  if v < g.vSize then some { g with V := Function.update g.V v r } else none

/-- `gp_GetAdjacentArc` (graphStructures.h 91). -/
def getAdj (g : Graph) (e : Nat) (b : Bool) : Option Nat := do return (← g.rdE e).link b
/-- `gp_SetAdjacentArc` (graphStructures.h 95). -/
def setAdj (g : Graph) (e : Nat) (b : Bool) (x : Nat) : Option Graph := do
  g.wrE e ((← g.rdE e).setLink b x)
/-- `gp_GetArc` (graphStructures.h 217). -/
def getArc (g : Graph) (v : Nat) (b : Bool) : Option Nat := do return (← g.rdV v).link b
/-- `gp_SetArc` (graphStructures.h 221). -/
def setArc (g : Graph) (v : Nat) (b : Bool) (x : Nat) : Option Graph := do
  g.wrV v ((← g.rdV v).setLink b x)
/-- `gp_GetNeighbor` (graphStructures.h 98). -/
def getNbr (g : Graph) (e : Nat) : Option Nat := do return (← g.rdE e).nbr
/-- `gp_SetNeighbor` (graphStructures.h 99). -/
def setNbr (g : Graph) (e : Nat) (v : Nat) : Option Graph := do
  g.wrE e { (← g.rdE e) with nbr := v }

/-- `gp_AttachArc`, graphUtils.c 1534-1570. -/
def attachArc (g : Graph) (v e : Nat) (link : Bool) (newArc : Nat) : Option Graph :=
  if e ≠ 0 then do
    let e2 ← g.getAdj e link
    let g ← g.setAdj e link newArc
    let g ← g.setAdj newArc (!link) e
    let g ← g.setAdj newArc link e2
    if e2 ≠ 0 then g.setAdj e2 (!link) newArc else g.setArc v (!link) newArc
  else do
    let e2 ← g.getArc v link
    let g ← g.setArc v link newArc
    let g ← g.setAdj newArc (!link) 0
    let g ← g.setAdj newArc link e2
    if e2 ≠ 0 then g.setAdj e2 (!link) newArc else g.setArc v (!link) newArc

/-- `gp_DetachArc`, graphUtils.c 1592-1606. -/
def detachArc (g : Graph) (arc : Nat) : Option Graph := do
  let nextArc ← g.getAdj arc false
  let prevArc ← g.getAdj arc true
  let g ← if nextArc ≠ 0 then g.setAdj nextArc true prevArc
          else do g.setArc (← g.getNbr (twin arc)) true prevArc
  if prevArc ≠ 0 then g.setAdj prevArc false nextArc
  else do g.setArc (← g.getNbr (twin arc)) false nextArc

/-- `_RestoreArc`, graphUtils.c 1796-1810. -/
def restoreArc (g : Graph) (arc : Nat) : Option Graph := do
  let nextArc ← g.getAdj arc false
  let prevArc ← g.getAdj arc true
  let g ← if nextArc ≠ 0 then g.setAdj nextArc true arc
          else do g.setArc (← g.getNbr (twin arc)) true arc
  if prevArc ≠ 0 then g.setAdj prevArc false arc
  else do g.setArc (← g.getNbr (twin arc)) false arc

/-- `_HideEdge`, graphUtils.c 1837-1841. -/
def hideEdge (g : Graph) (e : Nat) : Option Graph := do
  let g ← g.detachArc e
  g.detachArc (twin e)

/-- `_RestoreEdge`, graphUtils.c 1865-1869. -/
def restoreEdge (g : Graph) (e : Nat) : Option Graph := do
  let g ← g.restoreArc (twin e)
  g.restoreArc e

/-- A C link argument: only 0 and 1 are inside `link[2]`. -/
def linkOf : Nat → Option Bool
  | 0 => some false
  | 1 => some true
  | _ => none

/-- The range test shared by gp_AddEdge and gp_InsertEdge: both endpoints lie in
1..N+NV (graphUtils.c 1630-1631, 1711-1712). -/
def vertexOk (g : Graph) (u : Int) : Bool := 1 ≤ u && u ≤ (g.N + g.N : Nat)

/-- Slot selection of gp_AddEdge / gp_InsertEdge (graphUtils.c 1638-1643, 1721-1726): pop a
free slot, else take the first never-used slot. -/
def takeSlot (g : Graph) : Nat × Graph :=
  match g.holes with
  | h :: hs => (h, { g with holes := hs })
  | [] => (g.inUse, g)

/-- `gp_AddEdge`, graphUtils.c 1625-1652. `gp_AddEdge` does not check `ulink`/`vlink`: other
values than 0 and 1 index outside `link[2]`. -/
def addEdge (g : Graph) (u : Int) (ulink : Nat) (v : Int) (vlink : Nat) : Option (Graph × Res) :=
  if !(g.vertexOk u && g.vertexOk v) then some (g, .notok)
  else if g.M ≥ g.arcCap / 2 then some (g, .nonembeddable)
  else do
    let bu ← linkOf ulink
    let bv ← linkOf vlink
    let u := u.toNat
    let v := v.toNat
    let (vpos, g) := g.takeSlot
    let upos := twin vpos
    let g ← g.setNbr upos v
    let g ← g.attachArc u 0 bu upos
    let g ← g.setNbr vpos u
    let g ← g.attachArc v 0 bv vpos
    return ({ g with M := g.M + 1 }, .ok)

/-- `gp_InsertEdge`, graphUtils.c 1704-1739. The arc arguments are only range checked: NIL (0)
or 2 ≤ e ≤ edgeMax. -/
def insertEdge (g : Graph) (u : Int) (eu : Int) (eulink : Int) (v : Int) (ev : Int) (evlink : Int) :
    Option (Graph × Res) :=
  let edgeMax : Int := (g.inUse : Int) - 1
  if !(g.vertexOk u && g.vertexOk v) ∨ eu > edgeMax ∨ (eu < 2 ∧ eu ≠ 0) ∨
      ev > edgeMax ∨ (ev < 2 ∧ ev ≠ 0) ∨ eulink < 0 ∨ eulink > 1 ∨ evlink < 0 ∨ evlink > 1 then
    some (g, .notok)
  else if g.M ≥ g.arcCap / 2 then some (g, .nonembeddable)
  else do
    let bu ← linkOf eulink.toNat
    let bv ← linkOf evlink.toNat
    let u := u.toNat
    let v := v.toNat
    let (vpos, g) := g.takeSlot
    let upos := twin vpos
    let g ← g.setNbr upos v
    let g ← g.attachArc u eu.toNat bu upos
    let g ← g.setNbr vpos u
    let g ← g.attachArc v ev.toNat bv vpos
    return ({ g with M := g.M + 1 }, .ok)

/-- `gp_DeleteEdge`, graphUtils.c 1752-1784. Returns the `nextLink` neighbour read before the
deletion. The C counter `M` is an int; here it is a `Nat` (it is positive whenever `e` is an
edge of the graph, which is the function's precondition). Pushing on the full free-slot stack
is undefined behaviour (sp_Push macro, stack.h 70-). -/
def deleteEdge (g : Graph) (e : Nat) (nextLink : Nat) : Option (Graph × Nat) := do
  let b ← linkOf nextLink
  let nextArc ← g.getAdj e b
  let g ← g.detachArc e
  let g ← g.detachArc (twin e)
  let g ← g.wrE e {}
  let g ← g.wrE (twin e) {}
  let g := { g with M := g.M - 1 }
  if e < g.inUse then
    if g.holes.length < g.holesCap then return ({ g with holes := e :: g.holes }, nextArc)
    else none
  else return (g, nextArc)

/-- Iteration over an adjacency list: `e = gp_GetFirstArc; while (gp_IsArc(e)) { …; e =
gp_GetNextArc }` (used throughout; e.g. graphUtils.c 1369-1381) for `b = false`, and the
mirrored loop from the last arc for `b = true`. `none`: bad access, or no end within the fuel. -/
def walkFrom (g : Graph) (b : Bool) : Nat → Nat → Option (List Nat)
  | 0, e => if e = 0 then some [] else none
  | fuel + 1, e =>
    if e = 0 then some []
    else do
      let r ← g.walkFrom b fuel (← g.getAdj e b)
      return e :: r

/-- All arcs met when iterating over the adjacency list of `v` in direction `b`. The fuel is
the number of edge records, so a list without a cycle is always exhausted. -/
def walk (g : Graph) (b : Bool) (v : Nat) : Option (List Nat) := do
  g.walkFrom b g.eSize (← g.getArc v b)

/-- State of a graph on return from `gp_InitGraph(theGraph, N)`, with the arc capacity that is
in force: `arcCap = 6 * N` by default (`2 * DEFAULT_EDGE_LIMIT * N`), or the value requested
before by `gp_EnsureArcCapacity`. All records zero (`_InitVertices`, `_InitEdges`), graphUtils.c
203-241 and 246-312. The free-slot stack has capacity Esize / 2 and the work stack
max (2 * Esize) (6 * N). -/
def init (N arcCap : Nat) : Graph :=
  { N := N, arcCap := arcCap, holesCap := (2 + arcCap) / 2,
    stackCap := max (2 * (2 + arcCap)) (6 * N) }

end Graph
end Verif
