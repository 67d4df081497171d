import Verif.Graph.Capacity
import Verif.Graph.Vertex
import Verif.Util.ListColl

/-
Model of the depth-first search utilities (graphDFSUtils.c): gp_CreateDFSTree, _SortVertices,
gp_LowpointAndLeastAncestor and gp_LeastAncestor.

`none` is undefined behaviour (access outside an array, popping an empty stack, pushing on a full
one) or a loop that does not stop. The NULL argument tests and the logging and profiling code are
not modelled.
-/
namespace Verif

/-- `vertexInfo`, graphStructures.h 394-406. -/
structure VInfo where
  parent : Nat := 0
  leastAncestor : Nat := 0
  lowpoint : Nat := 0
  visitedInfo : Nat := 0
  pertinentEdge : Nat := 0
  pertinentRoots : Nat := 0
  futurePertinentChild : Nat := 0
  sortedDFSChildList : Nat := 0
  fwdArcList : Nat := 0
  deriving DecidableEq, Repr

/-- `baseGraphStructure`, graphStructures.h 555-574: the edge store and the vertex information
array `VI`, which has 1 + N entries (graphUtils.c 262). -/
structure PGraph where
  g : Graph
  VI : Nat → VInfo := fun _ => {}

namespace PGraph

/-- Read `VI[v]`, undefined outside the array. -/
def rdVI (s : PGraph) (v : Nat) : Option VInfo := if v < 1 + s.g.N then some (s.VI v) else none
/-- Write `VI[v]`, undefined outside the array. -/
def wrVI (s : PGraph) (v : Nat) (r : VInfo) : Option PGraph :=
  if v < 1 + s.g.N then some { s with VI := Function.update s.VI v r } else none
/-- Replace the edge store. -/
def setG (s : PGraph) (g : Graph) : PGraph := { s with g := g }

/-- `gp_GetVertexParent` (graphStructures.h 414). -/
def getParent (s : PGraph) (v : Nat) : Option Nat := do return (← s.rdVI v).parent
/-- `gp_SetVertexParent` (graphStructures.h 415). -/
def setParent (s : PGraph) (v p : Nat) : Option PGraph := do s.wrVI v { (← s.rdVI v) with parent := p }
/-- `gp_GetVertexLeastAncestor` (graphStructures.h 417). -/
def getLeastAncestor (s : PGraph) (v : Nat) : Option Nat := do return (← s.rdVI v).leastAncestor
/-- `gp_GetVertexLowpoint` (graphStructures.h 420). -/
def getLowpoint (s : PGraph) (v : Nat) : Option Nat := do return (← s.rdVI v).lowpoint

end PGraph

namespace Graph

/-- `gp_GetVertexVisited` (graphStructures.h 286): bit 0 of the vertex flags. -/
def visited (g : Graph) (v : Nat) : Option Bool := do return decide ((← g.rdV v).flags % 2 = 1)
/-- `gp_GetVertexIndex` (graphStructures.h 278). -/
def getIndex (g : Graph) (v : Nat) : Option Nat := do return (← g.rdV v).index
/-- `gp_SetVertexIndex` (graphStructures.h 279). -/
def setIndex (g : Graph) (v i : Nat) : Option Graph := do g.wrV v { (← g.rdV v) with index := i }
/-- `gp_GetEdgeType` (graphStructures.h 128), EDGE_TYPE_MASK = 14. -/
def getType (g : Graph) (e : Nat) : Option Nat := do return (← g.rdE e).flags &&& 14
/-- `gp_SetEdgeType` (graphStructures.h 130): or-s the type in. -/
def setType (g : Graph) (e t : Nat) : Option Graph := do
  let r ← g.rdE e
  g.wrE e { r with flags := r.flags ||| t }

/-- `sp_Push2` on the work stack (stack.h 79). -/
def push2 (g : Graph) (a b : Nat) : Option Graph := do (← g.push a).push b
/-- `sp_ClearStack` on the work stack (stack.h 71). -/
def clearStack (g : Graph) : Graph := { g with stack := [] }

/-- `_ClearVertexVisitedFlags(theGraph, FALSE)`, graphUtils.c 555-565. -/
def clearVisitedAll (g : Graph) : Option Graph :=
  (List.range g.N).foldlM (fun g i => g.clearVisited (i + 1)) g

/-- Push (u, e) if the neighbour is unvisited (graphDFSUtils.c 91-92). -/
def pushIf (g : Graph) (b : Bool) (u e : Nat) : Option Graph := if b then g.push2 u e else some g

/-- The loop over the arcs of `u` that pushes those to unvisited neighbours, graphDFSUtils.c 88-94. -/
def pushArcs (u : Nat) : Nat → Nat → Graph → Option Graph
  | 0, e, g => if e = 0 then some g else none
  | fuel + 1, e, g =>
    if e = 0 then some g
    else do
      let w ← g.getNbr e
      let b ← g.visited w
      let g ← g.pushIf (!b) u e
      let e ← g.getAdj e false
      pushArcs u fuel e g

/-- Set the types of an arc and its twin, if it is an arc (graphDFSUtils.c 79-83, 100-101). -/
def setTypes (g : Graph) (e t t' : Nat) : Option Graph := do (← g.setType e t).setType (twin e) t'

/-- The tree arc, if there is one (graphDFSUtils.c 79-83). -/
def setTree (g : Graph) (e : Nat) : Option Graph := if e ≠ 0 then g.setTypes e 14 6 else some g

/-- FLAGS_DFSNUMBERED (graphStructures.h 592). -/
def dfsNumbered (g : Graph) : Bool := g.flags &&& 1 ≠ 0
/-- FLAGS_SORTEDBYDFI (graphStructures.h 593). -/
def sortedByDfi (g : Graph) : Bool := g.flags &&& 2 ≠ 0

end Graph

namespace PGraph

/-- Visiting an unvisited vertex `u`, graphDFSUtils.c 72-94. -/
def dfsVisit (s : PGraph) (u uparent e dfi : Nat) : Option PGraph := do
  let g ← s.g.setVisited u
  let g ← g.setIndex u dfi
  let s ← (s.setG g).setParent u uparent
  let g ← s.g.setTree e
  let f ← g.getArc u false
  let g ← g.pushArcs u g.eSize f
  return s.setG g

/-- One iteration of the search after popping (uparent, e), graphDFSUtils.c 67-103. The second result is the
next DFI. -/
def dfsBody (s : PGraph) (v uparent e dfi : Nat) : Option (PGraph × Nat) := do
  let u ← if uparent = 0 then some v else s.g.getNbr e
  let b ← s.g.visited u
  if !b then do
    let s ← s.dfsVisit u uparent e dfi
    return (s, dfi + 1)
  else do
    let g ← s.g.setTypes e 10 2
    return (s.setG g, dfi)

/-- `while (sp_NonEmpty(theStack))`, graphDFSUtils.c 64-103. -/
def dfsLoop (v : Nat) : Nat → Nat → PGraph → Option (PGraph × Nat)
  | 0, dfi, s => if s.g.stack = [] then some (s, dfi) else none
  | fuel + 1, dfi, s =>
    match s.g.stack with
    | [] => some (s, dfi)
    | [_] => none
    | e :: p :: rest => do
      let (s, dfi) ← (s.setG { s.g with stack := rest }).dfsBody v p e dfi
      dfsLoop v fuel dfi s

/-- The outer loop, graphDFSUtils.c 57-104. -/
def dfsOuter : Nat → Nat → Nat → PGraph → Option PGraph
  | 0, _, dfi, s => if dfi ≤ s.g.N then none else some s
  | fuel + 1, v, dfi, s =>
    if dfi ≤ s.g.N then do
      let p ← s.getParent v
      if p ≠ 0 then dfsOuter fuel (v + 1) dfi s
      else do
        let g ← s.g.push2 0 0
        let (s, dfi) ← dfsLoop v (g.eSize + 1) dfi (s.setG g)
        dfsOuter fuel (v + 1) dfi s
    else some s

/-- `gp_CreateDFSTree`, graphDFSUtils.c 29-116. -/
def createDFSTree (s : PGraph) : Option (PGraph × Res) :=
  if s.g.dfsNumbered then some (s, .ok)
  else if (s.g.stackCap : Int) < 2 * s.g.getArcCapacity then some (s, .notok)
  else do
    let g ← s.g.clearStack.clearVisitedAll
    let s ← dfsOuter (g.N + 1) 1 1 (s.setG g)
    return (s.setG { s.g with flags := s.g.flags ||| 1 }, .ok)

/-- The relabelling of one edge record, graphDFSUtils.c 162-166. -/
def relabelEdge (g : Graph) (e : Nat) : Option Graph := do
  let n ← g.getNbr e
  if n ≠ 0 then do
    let i ← g.getIndex n
    let g ← g.setNbr e i
    let n ← g.getNbr (e + 1)
    let i ← g.getIndex n
    g.setNbr (e + 1) i
  else some g

/-- The relabelling of one parent, graphDFSUtils.c 172-173. -/
def relabelParent (s : PGraph) (v : Nat) : Option PGraph := do
  let p ← s.getParent v
  if p ≠ 0 then do
    let i ← s.g.getIndex p
    s.setParent v i
  else some s

/-- gp_SwapVertexRec and gp_SwapVertexInfo (graphStructures.h 319-324, 479-484). -/
def swap (s : PGraph) (d v : Nat) : Option PGraph := do
  let a ← s.g.rdV d
  let b ← s.g.rdV v
  let g ← s.g.wrV d b
  let g ← g.wrV v a
  let s := s.setG g
  let a ← s.rdVI d
  let b ← s.rdVI v
  let s ← s.wrVI d b
  s.wrVI v a

/-- The inner loop of the sort, graphDFSUtils.c 196-207. -/
def sortCycle (v : Nat) : Nat → Nat → PGraph → Option PGraph
  | 0, _, s => do if ← s.g.visited v then return s else none
  | fuel + 1, src, s => do
    if ← s.g.visited v then return s
    else do
      let d ← s.g.getIndex v
      let s ← s.swap d v
      let g ← s.g.setVisited d
      let g ← g.setIndex d src
      sortCycle v fuel d (s.setG g)

/-- `_SortVertices` after the search, graphDFSUtils.c 154-213. -/
def sortBody (s : PGraph) : Option PGraph := do
  let g ← (List.range (s.g.M + s.g.holes.length)).foldlM (fun g i => relabelEdge g (2 + 2 * i)) s.g
  let s := s.setG g
  let s ← (List.range s.g.N).foldlM (fun s i => relabelParent s (i + 1)) s
  let g ← s.g.clearVisitedAll
  let s := s.setG g
  let s ← (List.range s.g.N).foldlM (fun s i => sortCycle (i + 1) (s.g.N + 1) (i + 1) s) s
  return s.setG { s.g with flags := s.g.flags ^^^ 2 }

/-- `_SortVertices`, graphDFSUtils.c 141-224. -/
def sortVertices (s : PGraph) : Option (PGraph × Res) :=
  if s.g.dfsNumbered then do return (← s.sortBody, .ok)
  else do
    let (s, r) ← s.createDFSTree
    if r ≠ .ok then return (s, .notok)
    else return (← s.sortBody, .ok)

/-- Number and sort if that has not been done: the common beginning of gp_LowpointAndLeastAncestor and
gp_LeastAncestor, graphDFSUtils.c 259-265, 387-393. -/
def ensureSorted (s : PGraph) : Option (PGraph × Res) := do
  let (s, r) ← s.createDFSTree
  if r ≠ .ok then return (s, .notok)
  else if s.g.sortedByDfi then return (s, .ok)
  else s.sortVertices

/-- Push the end of a CHILD arc, graphDFSUtils.c 304-307. -/
def pushChild (g : Graph) (t e : Nat) : Option Graph := if t = 14 then do g.push (← g.getNbr e) else some g

/-- Push the DFS children of `u`, graphDFSUtils.c 301-310. -/
def pushChildren : Nat → Nat → Graph → Option Graph
  | 0, e, g => if e = 0 then some g else none
  | fuel + 1, e, g =>
    if e = 0 then some g
    else do
      let t ← g.getType e
      let g ← pushChild g t e
      let e ← g.getAdj e false
      pushChildren fuel e g

/-- The loop that computes the least ancestor and the least lowpoint of the children, graphDFSUtils.c 319-335. -/
def scanLow (s : PGraph) : Nat → Nat → Nat → Nat → Option (Nat × Nat)
  | 0, e, la, l => if e = 0 then some (la, l) else none
  | fuel + 1, e, la, l =>
    if e = 0 then some (la, l)
    else do
      let w ← s.g.getNbr e
      let t ← s.g.getType e
      let n ← s.g.getAdj e false
      if t = 14 then do
        let lw := (← s.rdVI w).lowpoint
        s.scanLow fuel n la (if l > lw then lw else l)
      else if t = 2 then s.scanLow fuel n (if la > w then w else la) l
      else s.scanLow fuel n la l

/-- One iteration after popping `u`, graphDFSUtils.c 291-341. The second result is the new `v`. -/
def lowBody (s : PGraph) (u v : Nat) : Option (PGraph × Nat) := do
  if !(← s.g.visited u) then do
    let g ← s.g.setVisited u
    let g ← g.push u
    let f ← g.getArc u false
    let g ← pushChildren g.eSize f g
    return (s.setG g, v + 1)
  else do
    let f ← s.g.getArc u false
    let (la, l) ← s.scanLow s.g.eSize f u u
    let r ← s.rdVI u
    let s ← s.wrVI u { r with leastAncestor := la, lowpoint := if la < l then la else l }
    return (s, v)

/-- `while (sp_NonEmpty(theStack))`, graphDFSUtils.c 287-342. -/
def lowLoop : Nat → Nat → PGraph → Option (PGraph × Nat)
  | 0, v, s => if s.g.stack = [] then some (s, v) else none
  | fuel + 1, v, s =>
    match s.g.stack with
    | [] => some (s, v)
    | u :: rest => do
      let (s, v) ← (s.setG { s.g with stack := rest }).lowBody u v
      lowLoop fuel v s

/-- The outer loop, graphDFSUtils.c 278-343. -/
def lowOuter : Nat → Nat → PGraph → Option PGraph
  | 0, v, s => if v ≤ s.g.N then none else some s
  | fuel + 1, v, s =>
    if v ≤ s.g.N then do
      if ← s.g.visited v then lowOuter fuel (v + 1) s
      else do
        let g ← s.g.push v
        let (s, v) ← lowLoop (2 * g.N + 1) v (s.setG g)
        lowOuter fuel v s
    else some s

/-- `gp_LowpointAndLeastAncestor`, graphDFSUtils.c 251-358. -/
def lowpointAndLeastAncestor (s : PGraph) : Option (PGraph × Res) := do
  let (s, r) ← s.ensureSorted
  if r ≠ .ok then return (s, .notok)
  else if s.g.stackCap < s.g.N then return (s, .notok)
  else do
    let g ← s.g.clearStack.clearVisitedAll
    let s ← lowOuter (g.N + 1) 1 (s.setG g)
    return (s, .ok)

/-- The loop over the arcs of `u` in gp_LeastAncestor, graphDFSUtils.c 427-442: pushes the children and
computes the least ancestor. -/
def scanLeast : Nat → Nat → Nat → Graph → Option (Graph × Nat)
  | 0, e, la, g => if e = 0 then some (g, la) else none
  | fuel + 1, e, la, g =>
    if e = 0 then some (g, la)
    else do
      let w ← g.getNbr e
      let t ← g.getType e
      if t = 14 then do
        let g ← g.push w
        scanLeast fuel (← g.getAdj e false) la g
      else if t = 2 then scanLeast fuel (← g.getAdj e false) (if la > w then w else la) g
      else scanLeast fuel (← g.getAdj e false) la g

/-- One iteration after popping `u`, graphDFSUtils.c 419-445. -/
def leastBody (s : PGraph) (u v : Nat) : Option (PGraph × Nat) := do
  if !(← s.g.visited u) then do
    let g ← s.g.setVisited u
    let f ← g.getArc u false
    let (g, la) ← scanLeast g.eSize f u g
    let s := s.setG g
    let r ← s.rdVI u
    let s ← s.wrVI u { r with leastAncestor := la }
    return (s, v + 1)
  else return (s, v)

/-- `while (sp_NonEmpty(theStack))`, graphDFSUtils.c 416-446. -/
def leastLoop : Nat → Nat → PGraph → Option (PGraph × Nat)
  | 0, v, s => if s.g.stack = [] then some (s, v) else none
  | fuel + 1, v, s =>
    match s.g.stack with
    | [] => some (s, v)
    | u :: rest => do
      let (s, v) ← (s.setG { s.g with stack := rest }).leastBody u v
      leastLoop fuel v s

/-- The outer loop, graphDFSUtils.c 407-447. -/
def leastOuter : Nat → Nat → PGraph → Option PGraph
  | 0, v, s => if v ≤ s.g.N then none else some s
  | fuel + 1, v, s =>
    if v ≤ s.g.N then do
      if ← s.g.visited v then leastOuter fuel (v + 1) s
      else do
        let g ← s.g.push v
        let (s, v) ← leastLoop (2 * g.N + 1) v (s.setG g)
        leastOuter fuel v s
    else some s

/-- `gp_LeastAncestor`, graphDFSUtils.c 379-457. Unlike gp_LowpointAndLeastAncestor it does not clear the
visited flags. -/
def leastAncestor (s : PGraph) : Option (PGraph × Res) := do
  let (s, r) ← s.ensureSorted
  if r ≠ .ok then return (s, .notok)
  else if s.g.stackCap < s.g.N then return (s, .notok)
  else do
    let s ← leastOuter (s.g.N + 1) 1 (s.setG s.g.clearStack)
    return (s, .ok)

end PGraph
end Verif
