import Verif.DFS.Model
import Verif.Graph.Query
import Verif.Random.Model

/-
Model of the integrity tests of embedding results (graphTests.c).

`none` is undefined behaviour (access outside an array, popping an empty stack, pushing on a full one) or a loop that
does not stop. The NULL argument tests are not modelled. The two graphs compared are different objects. The return
values TRUE (1) and FALSE (0) are `Bool`s, OK and NOTOK are `Res`.
-/
namespace Verif
namespace Test
open Graph

/-- First loop of `_TestSubgraph`, graphTests.c 902-914: mark in `g` the neighbours met in the list of the subgraph `h`.
`d` is degreeCount; `false`: an arc without neighbour was met. -/
def markLoop (h : Graph) : Nat → Nat → Nat → Graph → Option (Graph × Nat × Bool)
  | 0, e, d, g => if e = 0 then some (g, d, true) else none
  | fuel + 1, e, d, g =>
    if e = 0 then some (g, d, true)
    else do
      let w ← h.getNbr e
      if w = 0 then some (g, d, false)
      else do
        let g ← g.setVisited w
        let e ← h.getAdj e false
        markLoop h fuel e (d + 1) g

/-- Second loop of `_TestSubgraph`, graphTests.c 922-932: unmark the neighbours met in the list of the graph. -/
def unmarkLoop : Nat → Nat → Graph → Option (Graph × Bool)
  | 0, e, g => if e = 0 then some (g, true) else none
  | fuel + 1, e, g =>
    if e = 0 then some (g, true)
    else do
      let w ← g.getNbr e
      if w = 0 then some (g, false)
      else do
        let g ← g.clearVisited w
        let e ← g.getAdj e false
        unmarkLoop fuel e g

/-- Third loop of `_TestSubgraph`, graphTests.c 941-949: no neighbour in the subgraph is still marked. -/
def checkLoop (h g : Graph) : Nat → Nat → Option Bool
  | 0, e => if e = 0 then some true else none
  | fuel + 1, e =>
    if e = 0 then some true
    else do
      let w ← h.getNbr e
      if ← g.visited w then return false
      else do
        let e ← h.getAdj e false
        checkLoop h g fuel e

/-- The body of the vertex loop of `_TestSubgraph`, graphTests.c 894-953. -/
def subVertex (h : Graph) (v d : Nat) (g : Graph) : Option (Graph × Nat × Bool) := do
  let (g, d, ok) ← markLoop h h.eSize (← h.getArc v false) d g
  if !ok then return (g, d, false)
  else do
    let (g, ok) ← unmarkLoop g.eSize (← g.getArc v false) g
    if !ok then return (g, d, false)
    else do
      let ok ← checkLoop h g h.eSize (← h.getArc v false)
      return (g, d, ok)

/-- The vertex loop of `_TestSubgraph`, graphTests.c 894-953: `k` vertices from `v` on. -/
def subLoop (h : Graph) : Nat → Nat → Nat → Graph → Option (Graph × Nat × Bool)
  | 0, _, d, g => some (g, d, true)
  | k + 1, v, d, g => do
    let (g, d, ok) ← subVertex h v d g
    if ok then subLoop h k (v + 1) d g else return (g, d, false)

/-- Sort if told to; the result of gp_SortVertices is not looked at. -/
def sortIf (b : Bool) (s : PGraph) : Option PGraph := if b then do return (← s.sortVertices).1 else some s

/-- `_TestSubgraph` between the sorts, graphTests.c 889-953. -/
def subBody (h s : PGraph) : Option (PGraph × Nat × Bool) := do
  let g ← s.g.clearVisitedAll
  let (g, d, ok) ← subLoop h.g h.g.N 1 0 g
  return (s.setG g, d, ok)

/-- `_TestSubgraph`, graphTests.c 863-967: is `h` a subgraph of `s`? Result: both graphs and the answer. -/
def testSubgraph (h s : PGraph) : Option (PGraph × PGraph × Bool) := do
  let sortH := !s.g.sortedByDfi && h.g.sortedByDfi
  let h ← sortIf sortH h
  let sortS := !h.g.sortedByDfi && s.g.sortedByDfi
  let s ← sortIf sortS s
  let (s, d, ok) ← subBody h s
  let h ← sortIf sortH h
  let s ← sortIf sortS s
  return (h, s, ok && d == 2 * h.g.M)

/-- `gp_GetNextArcCircular` (graphStructures.h 604-605). -/
def nextCirc (g : Graph) (e : Nat) : Option Nat := do
  let n ← g.getAdj e false
  if n ≠ 0 then return n else do g.getArc (← g.getNbr (twin e)) false

/-- `gp_GetEdgeVisited` (graphStructures.h 106). -/
def edgeVisited (g : Graph) (e : Nat) : Option Bool := do return decide ((← g.rdE e).flags &&& 1 ≠ 0)

/-- Push both arcs of an edge slot unless it is a hole, graphTests.c 183-190. -/
def pushEdge (g : Graph) (e : Nat) : Option Graph := do
  let w ← g.getNbr e
  if w ≠ 0 then do
    let g ← g.push e
    let g ← Random.clearEdgeVisited g e
    let g ← g.push (twin e)
    Random.clearEdgeVisited g (twin e)
  else some g

/-- The loop around one face, graphTests.c 211-219. `false`: NOTOK is returned. -/
def faceLoop (start : Nat) : Nat → Nat → Graph → Option (Graph × Bool)
  | 0, _, _ => none
  | fuel + 1, e, g => do
    let n ← nextCirc g (twin e)
    if ← edgeVisited g n then return (g, false)
    else do
      let g ← Random.setEdgeVisited g n
      if n ≠ start then faceLoop start fuel n g else return (g, true)

/-- The loop over the stacked arcs, graphTests.c 202-221. The fuel is the size of the stack. -/
def facesLoop : Nat → Nat → Graph → Option (Graph × Nat × Bool)
  | 0, k, g => if g.stack = [] then some (g, k, true) else none
  | fuel + 1, k, g =>
    if g.stack = [] then some (g, k, true)
    else do
      let (e, g) ← g.pop
      if ← edgeVisited g e then facesLoop fuel k g
      else do
        let (g, ok) ← faceLoop e g.eSize e g
        if ok then facesLoop fuel (k + 1) g else return (g, k, false)

/-- The loop over the tree roots, graphTests.c 229-237. `v` is the last vertex looked at; `f` and `c` are NumFaces and
connectedComponents. -/
def rootStep (s : PGraph) (fc : Int × Int) (v : Nat) : Option (Int × Int) := do
  if (← s.getParent v) = 0 then do
    let d ← s.g.degree v
    return (if d > 0 then fc.1 - 1 else fc.1, fc.2 + 1)
  else some fc

/-- The last part of `_CheckEmbeddingFacialIntegrity`, graphTests.c 228-245. -/
def eulerTest (s : PGraph) (faces : Nat) : Option Res := do
  let fc ← (List.range s.g.N).foldlM (fun fc i => rootStep s fc (i + 1)) ((faces : Int), (0 : Int))
  return if fc.1 + 1 = (s.g.M : Int) - s.g.N + 1 + fc.2 then .ok else .notok

/-- `_CheckEmbeddingFacialIntegrity`, graphTests.c 161-246. -/
def checkFacial (s : PGraph) : Option (PGraph × Res) := do
  let g ← (List.range (s.g.M + s.g.holes.length)).foldlM (fun g i => pushEdge g (2 + 2 * i)) s.g.clearStack
  if g.stack.length ≠ 2 * g.M then return (s.setG g, .notok)
  else do
    let (g, k, ok) ← facesLoop g.stack.length 0 g
    if !ok then return (s.setG g, .notok)
    else do
      let r ← eulerTest (s.setG g) k
      return (s.setG g, r)

/-- The loop of `_MarkExternalFaceVertices`, graphTests.c 313-356. -/
def markFaceLoop (start : Nat) : Nat → Nat → Nat → Graph → Option Graph
  | 0, _, _, _ => none
  | fuel + 1, v, e, g => do
    let g ← g.setVisited v
    let v ← g.getNbr e
    let n ← nextCirc g (twin e)
    if twin e ≠ (← g.getArc start true) then markFaceLoop start fuel v n g else return g

/-- `_MarkExternalFaceVertices`, graphTests.c 299-357. -/
def markFace (g : Graph) (start : Nat) : Option Graph := do
  let e ← g.getArc start false
  if e = 0 then g.setVisited start else markFaceLoop start g.eSize start e g

/-- `_CheckAllVerticesOnExternalFace`, graphTests.c 259-283. -/
def checkExternal (s : PGraph) : Option (PGraph × Res) := do
  let g ← s.g.clearVisitedAll
  let s ← (List.range s.g.N).foldlM
    (fun s i => do if (← s.getParent (i + 1)) = 0 then return s.setG (← markFace s.g (i + 1)) else return s) (s.setG g)
  let ok ← (List.range s.g.N).foldlM (fun (ok : Bool) i => do return ok && (← s.g.visited (i + 1))) true
  return (s, if ok then .ok else .notok)

/-- `_CheckEmbeddingIntegrity`, graphTests.c 112-134; `flags` is embedFlags. -/
def checkEmbedding (flags : Nat) (s orig : PGraph) : Option (PGraph × PGraph × Res) := do
  let (s, orig, ok) ← testSubgraph s orig
  if !ok then return (s, orig, .notok)
  else do
    let (orig, s, ok) ← testSubgraph orig s
    if !ok then return (s, orig, .notok)
    else do
      let (s, r) ← checkFacial s
      if r ≠ .ok then return (s, orig, .notok)
      else if flags = 2 then do
        let (s, r) ← checkExternal s
        return (s, orig, r)
      else return (s, orig, .ok)

/-- The test for a vertex of degree two in `_TryPath` and `_MarkPath`, graphTests.c 805-807, 834-836. -/
def isDegreeTwo (g : Graph) (v : Nat) : Option Bool := do
  let a ← g.getArc v false
  if a = 0 then return false
  else do
    let b ← g.getArc v true
    if b = 0 then return false
    else do
      let n ← g.getAdj a false
      return decide (n = b)

/-- Leave a vertex of degree two by the other arc, graphTests.c 809-812, 840-843. -/
def otherArc (g : Graph) (v e : Nat) : Option Nat := do
  let a ← g.getArc v false
  if a = twin e then g.getArc v true else return a

/-- `_TryPath`, graphTests.c 798-818. -/
def tryPath (g : Graph) (V : Nat) : Nat → Nat → Option Bool
  | 0, _ => none
  | fuel + 1, e => do
    let v ← g.getNbr e
    if ← isDegreeTwo g v then do
      let e ← otherArc g v e
      tryPath g V fuel e
    else return decide (v = V)

/-- `_MarkPath`, graphTests.c 828-848. -/
def markPath : Nat → Nat → Graph → Option Graph
  | 0, _, _ => none
  | fuel + 1, e, g => do
    let v ← g.getNbr e
    if ← isDegreeTwo g v then do
      let g ← g.setVisited v
      let e ← otherArc g v e
      markPath fuel e g
    else return g

/-- Loop of `_TestPath`, graphTests.c 773-784. -/
def testPathLoop (V : Nat) : Nat → Nat → Graph → Option (Graph × Bool)
  | 0, e, g => if e = 0 then some (g, false) else none
  | fuel + 1, e, g =>
    if e = 0 then some (g, false)
    else do
      if ← tryPath g V (g.eSize + 1) e then do return (← markPath (g.eSize + 1) e g, true)
      else do
        let e ← g.getAdj e false
        testPathLoop V fuel e g

/-- `_TestPath`, graphTests.c 769-787. -/
def testPath (g : Graph) (U V : Nat) : Option (Graph × Bool) := do
  testPathLoop V g.eSize (← g.getArc U false) g

/-- Write an entry of a local array, undefined outside. -/
def wr (l : List Nat) (i x : Nat) : Option (List Nat) := if i < l.length then some (l.set i x) else none

/-- One vertex of `_getImageVertices`, graphTests.c 422-434: the two arrays and imageVertPos; `none` inside: NOTOK is
returned. -/
def imageStep (g : Graph) (maxDegree maxImage : Nat) (st : List Nat × List Nat × Nat) (v : Nat) :
    Option (Option (List Nat × List Nat × Nat)) := do
  let d ← g.degree v
  if d = 1 then return none
  else if d > maxDegree then return none
  else do
    let degrees ← wr st.1 d ((← st.1[d]?) + 1)
    if st.2.2 < maxImage ∧ d > 2 then do return some (degrees, ← wr st.2.1 st.2.2 v, st.2.2 + 1)
    else if d > 2 then return none
    else return some (degrees, st.2.1, st.2.2)

/-- The loop of `_getImageVertices`, graphTests.c 420-435: `k` vertices from `v` on. -/
def imageLoop (g : Graph) (maxDegree maxImage : Nat) :
    Nat → Nat → List Nat × List Nat × Nat → Option (Option (List Nat × List Nat × Nat))
  | 0, _, st => some (some st)
  | k + 1, v, st => do
    match ← imageStep g maxDegree maxImage st v with
    | none => return none
    | some st => imageLoop g maxDegree maxImage k (v + 1) st

/-- `_getImageVertices`, graphTests.c 407-438: the arrays `degrees` (maxDegree + 1 entries) and `imageVerts` (maxImage
entries), or NOTOK. -/
def imageVertices (g : Graph) (maxDegree maxImage : Nat) : Option (Option (List Nat × List Nat)) := do
  let r ← imageLoop g maxDegree maxImage g.N 1 (List.replicate (maxDegree + 1) 0, List.replicate maxImage 0, 0)
  return r.map fun st => (st.1, st.2.1)

/-- Tests of the paths between the pairs of a list, as long as they succeed: the loops of graphTests.c 480-485,
561-565. -/
def testPairs (verts : List Nat) : List (Nat × Nat) → Graph → Option (Graph × Bool)
  | [], g => some (g, true)
  | p :: ps, g => do
    let (g, ok) ← testPath g (← verts[p.1]?) (← verts[p.2]?)
    if ok then testPairs verts ps g else return (g, false)

/-- Decrement for each visited vertex, graphTests.c 490-492, 567-569, 710-712. -/
def countVisited (g : Graph) : Option Nat :=
  (List.range g.N).foldlM (fun (k : Nat) i => do return if ← g.visited (i + 1) then k + 1 else k) 0

/-- The pairs of the double loop, graphTests.c 480-482. -/
def completePairs (n : Nat) : List (Nat × Nat) :=
  (List.range n).flatMap fun v => ((List.range n).filter fun w => decide (v ≠ w)).map fun w => (v, w)

/-- The end of the obstruction tests: are all vertices of degree two used, graphTests.c 490-501, 567-578, 710-721. The
C code decrements degrees[2]; the value left is compared with 0, and the callers do not use it further. -/
def allUsed (g : Graph) (degrees : List Nat) : Option Bool := do
  let k ← countVisited g
  return (← degrees[2]?) == k

/-- `_TestForCompleteGraphObstruction`, graphTests.c 461-502. -/
def testComplete (g : Graph) (n : Nat) (degrees verts : List Nat) : Option (Graph × Bool) := do
  if (← degrees[n - 1]?) ≠ n then return (g, false)
  else if (← degrees[0]?) + (← degrees[2]?) + (← degrees[n - 1]?) ≠ g.N then return (g, false)
  else do
    let g ← g.clearVisitedAll
    let (g, ok) ← testPairs verts (completePairs n) g
    if !ok then return (g, false)
    else do return (g, ← allUsed g degrees)

/-- Exchange two entries, graphTests.c 549-551. -/
def exchange (l : List Nat) (i j : Nat) : Option (List Nat) := do
  let x ← l[i]?
  let l' ← wr l i (← l[j]?)
  wr l' j x

/-- The inner loop of the partition into two sides, graphTests.c 538-552; `k` is K. -/
def partnerLoop (pos : Nat) : Nat → Nat → Graph → List Nat → Option (Graph × List Nat × Bool)
  | 0, _, _, _ => none
  | fuel + 1, k, g, verts => do
    let (g, ok) ← testPath g (← verts[pos]?) (← verts[0]?)
    if ok then return (g, verts, true)
    else do
      let verts ← exchange verts (k + 1) pos
      if k + 1 < 3 then partnerLoop pos fuel (k + 1) g verts else return (g, verts, false)

/-- The partition of the six image vertices, graphTests.c 533-556. -/
def partition : List Nat → Graph → List Nat → Option (Graph × List Nat × Bool)
  | [], g, verts => some (g, verts, true)
  | pos :: ps, g, verts => do
    let (g, verts, ok) ← partnerLoop pos 3 0 g verts
    if ok then partition ps g verts else return (g, verts, false)

/-- `_TestForK33GraphObstruction`, graphTests.c 520-579. -/
def testK33 (g : Graph) (degrees verts : List Nat) : Option (Graph × Bool) := do
  if (← degrees[4]?) ≠ 0 then return (g, false)
  else if (← degrees[3]?) ≠ 6 then return (g, false)
  else do
    let (g, verts, ok) ← partition [3, 4, 5] g verts
    if !ok then return (g, false)
    else do
      let g ← g.clearVisitedAll
      let (g, ok) ← testPairs verts [(0, 3), (0, 4), (0, 5), (1, 3), (1, 4), (1, 5), (2, 3), (2, 4), (2, 5)] g
      if !ok then return (g, false)
      else do return (g, ← allUsed g degrees)

/-- `_CheckKuratowskiSubgraphIntegrity`, graphTests.c 610-630. -/
def checkKuratowski (g : Graph) : Option (Graph × Res) := do
  match ← imageVertices g 4 6 with
  | none => return (g, .notok)
  | some (degrees, verts) => do
    let (g, ok) ← testComplete g 5 degrees verts
    if ok then return (g, .ok)
    else do
      let (g, ok) ← testK33 g degrees verts
      return (g, if ok then .ok else .notok)

/-- The loop over the neighbours of the first image vertex, graphTests.c 677-684. `false`: FALSE is returned. -/
def pickLoop (g : Graph) : Nat → Nat → Nat → List Nat → Option (List Nat × Bool)
  | 0, e, _, verts => if e = 0 then some (verts, true) else none
  | fuel + 1, e, pos, verts =>
    if e = 0 then some (verts, true)
    else do
      let verts ← wr verts pos (← g.getNbr e)
      if (← verts[pos]?) = (← verts[1]?) then return (verts, false)
      else do
        let e ← g.getAdj e false
        pickLoop g fuel e (pos + 1) verts

/-- The loop over the paths to the second image vertex, graphTests.c 693-700. -/
def pathsToSecond (verts : List Nat) : List Nat → Graph → Option (Graph × Bool)
  | [], g => some (g, true)
  | pos :: ps, g => do
    let (g, ok) ← testPath g (← verts[pos]?) (← verts[1]?)
    if ok then do
      let g ← g.setVisited (← verts[pos]?)
      pathsToSecond verts ps g
    else return (g, false)

/-- `_TestForK23GraphObstruction`, graphTests.c 644-722. -/
def testK23 (g : Graph) (degrees verts : List Nat) : Option (Graph × Bool) := do
  if (← degrees[3]?) ≠ 2 then return (g, false)
  else do
    let (verts, ok) ← pickLoop g g.eSize (← g.getArc (← verts[0]?) false) 2 verts
    if !ok then return (g, false)
    else do
      let g ← g.clearVisitedAll
      let (g, ok) ← pathsToSecond verts [2, 3, 4] g
      if !ok then return (g, false)
      else do return (g, ← allUsed g degrees)

/-- `_CheckOuterplanarObstructionIntegrity`, graphTests.c 737-759. -/
def checkOuterplanar (g : Graph) : Option (Graph × Res) := do
  match ← imageVertices g 3 5 with
  | none => return (g, .notok)
  | some (degrees, verts) => do
    let (g, ok) ← testComplete g 4 degrees verts
    if ok then return (g, .ok)
    else do
      let (g, ok) ← testK23 g degrees verts
      return (g, if ok then .ok else .notok)

/-- `_CheckObstructionIntegrity`, graphTests.c 369-386. -/
def checkObstruction (flags : Nat) (s orig : PGraph) : Option (PGraph × PGraph × Res) := do
  let (s, orig, ok) ← testSubgraph s orig
  if !ok then return (s, orig, .notok)
  else if flags = 1 then do
    let (g, r) ← checkKuratowski s.g
    return (s.setG g, orig, r)
  else if flags = 2 then do
    let (g, r) ← checkOuterplanar s.g
    return (s.setG g, orig, r)
  else return (s, orig, .notok)

/-- `gp_TestEmbedResultIntegrity`, graphTests.c 76-96, for a graph without extensions; `flags` is the embedFlags of the
result graph. -/
def testEmbedResult (flags : Nat) (s orig : PGraph) (embedResult : Res) : Option (PGraph × PGraph × Res) :=
  match embedResult with
  | .notok => some (s, orig, .notok)
  | .ok => checkEmbedding flags s orig
  | .nonembeddable => do
    let (s, orig, r) ← checkObstruction flags s orig
    return (s, orig, if r = .ok then .nonembeddable else r)

end Test
end Verif
