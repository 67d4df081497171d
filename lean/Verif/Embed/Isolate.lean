import Verif.Embed.Model
import Verif.Test.Model

/-
Model of the isolation of obstructions: what gp_Embed does after a blocked walk down (planarityRelated/graphNonplanar.c
43-828, graphIsolator.c 58-833, graphOuterplanarObstruction.c 48-196, with helpers of graphUtils.c and graphEmbed.c).

`none` is undefined behaviour or a loop that does not stop. The Boolean of a result tells whether OK was returned. The
functions called through the function table are the default ones.
-/
namespace Verif
namespace EGraph
open Graph Random Test

/-- Call the second function if the first one returned OK. -/
def both (a : Option (EGraph × Bool)) (k : EGraph → Option (EGraph × Bool)) : Option (EGraph × Bool) := do
  let (s, ok) ← a
  if ok then k s else return (s, false)

def setIC (s : EGraph) (ic : IC) : EGraph := { s with ic := ic }

/-- `gp_GetVertexObstructionType` (graphStructures.h 311). -/
def obstType (g : Graph) (v : Nat) : Option Nat := do return (← g.rdV v).flags &&& 14
/-- `gp_ClearVertexObstructionType` (graphStructures.h 312). -/
def clearObst (g : Graph) (v : Nat) : Option Graph := do
  let r ← g.rdV v
  g.wrV v { r with flags := r.flags - (r.flags &&& 14) }
/-- `gp_ResetVertexObstructionType` (graphStructures.h 314-315). -/
def resetObst (g : Graph) (v t : Nat) : Option Graph := do
  let r ← g.rdV v
  g.wrV v { r with flags := (r.flags - (r.flags &&& 14)) ||| t }
/-- Mark both arcs of an edge. -/
def markEdge (g : Graph) (e : Nat) : Option Graph := do setEdgeVisited (← setEdgeVisited g e) (twin e)
/-- Clear the marks of both arcs of an edge. -/
def unmarkEdge (g : Graph) (e : Nat) : Option Graph := do clearEdgeVisited (← clearEdgeVisited g e) (twin e)

/-- `gp_GetPrevArcCircular` (graphStructures.h 607-608). -/
def prevCirc (g : Graph) (e : Nat) : Option Nat := do
  let n ← g.getAdj e true
  if n ≠ 0 then return n else do g.getArc (← g.getNbr (twin e)) true

/-- `_ClearVisitedFlags`, graphUtils.c 545-578. -/
def clearFlags (g : Graph) : Option Graph := do
  let g ← (List.range (g.N + g.N)).foldlM (fun g i => g.clearVisited (i + 1)) g
  (List.range (g.inUse - 2)).foldlM (fun g i => clearEdgeVisited g (i + 2)) g

/-- Push the tree children of W, graphEmbed.c 1262-1277 with PreserveSigns = 1. -/
def pushKidsKeep (flag : Nat) : Nat → Graph → Nat → Option Graph
  | 0, g, e => if e = 0 then some g else none
  | fuel + 1, g, e =>
    if e = 0 then some g
    else do
      let t ← g.getType e
      let g ← if t = 14 then do
          let w ← g.getNbr e
          let i ← getInverted g e
          g.push2 w (flag ^^^ i)
        else some g
      pushKidsKeep flag fuel g (← g.getAdj e false)

/-- The loop of `_OrientVerticesInBicomp`, graphEmbed.c 1254-1278, above `bottom`. -/
def orientKeepLoop (bottom : Nat) : Nat → EGraph → Option EGraph
  | 0, s => if s.p.g.stack.length ≤ bottom then some s else none
  | fuel + 1, s =>
    if s.p.g.stack.length ≤ bottom then some s
    else do
      let (flag, g) ← s.p.g.pop
      let (W, g) ← g.pop
      let s := s.setG g
      let s ← if flag ≠ 0 then s.invertVertex W else some s
      let a ← s.p.g.getArc W false
      let g ← pushKidsKeep flag s.p.g.eSize s.p.g a
      orientKeepLoop bottom fuel (s.setG g)

/-- `_OrientVerticesInBicomp`, graphEmbed.c 1247-1280, with PreserveSigns = 1. -/
def orientKeep (s : EGraph) (R : Nat) : Option EGraph := do
  let g ← s.p.g.push2 R 0
  orientKeepLoop s.p.g.stack.length (s.p.g.vSize + 1) (s.setG g)

/-- The arcs of a vertex in `_ClearVisitedFlagsInBicomp`, graphUtils.c 604-613. -/
def clearArcs : Nat → Graph → Nat → Option Graph
  | 0, g, e => if e = 0 then some g else none
  | fuel + 1, g, e =>
    if e = 0 then some g
    else do
      let g ← clearEdgeVisited g e
      let t ← g.getType e
      let g ← if t = 14 then do g.push (← g.getNbr e) else some g
      clearArcs fuel g (← g.getAdj e false)

/-- The loop of `_ClearVisitedFlagsInBicomp`, graphUtils.c 599-614. -/
def clearLoop (bottom : Nat) : Nat → Graph → Option Graph
  | 0, g => if g.stack.length ≤ bottom then some g else none
  | fuel + 1, g =>
    if g.stack.length ≤ bottom then some g
    else do
      let (v, g) ← g.pop
      let g ← g.clearVisited v
      let a ← g.getArc v false
      let g ← clearArcs g.eSize g a
      clearLoop bottom fuel g

/-- `_ClearVisitedFlagsInBicomp`, graphUtils.c 593-616. -/
def clearBicomp (g : Graph) (R : Nat) : Option Graph := do
  let h ← g.push R
  clearLoop g.stack.length (g.vSize + 1) h

/-- The arcs of a vertex in `_ClearVertexTypeInBicomp`, graphUtils.c 817-824. -/
def typeArcs : Nat → Graph → Nat → Option Graph
  | 0, g, e => if e = 0 then some g else none
  | fuel + 1, g, e =>
    if e = 0 then some g
    else do
      let t ← g.getType e
      let g ← if t = 14 then do g.push (← g.getNbr e) else some g
      typeArcs fuel g (← g.getAdj e false)

/-- The loop of `_ClearVertexTypeInBicomp`, graphUtils.c 812-825. -/
def typeLoop (bottom : Nat) : Nat → Graph → Option Graph
  | 0, g => if g.stack.length ≤ bottom then some g else none
  | fuel + 1, g =>
    if g.stack.length ≤ bottom then some g
    else do
      let (v, g) ← g.pop
      let g ← clearObst g v
      let a ← g.getArc v false
      let g ← typeArcs g.eSize g a
      typeLoop bottom fuel g

/-- `_ClearVertexTypeInBicomp`, graphUtils.c 806-827. -/
def clearTypes (g : Graph) (R : Nat) : Option Graph := do
  let h ← g.push R
  typeLoop g.stack.length (g.vSize + 1) h

/-- `_GetNeighborOnExtFace`, graphNonplanar.c 219-243. -/
def extNext (g : Graph) (x : Nat) (prev : Bool) : Option (Nat × Bool) := do
  let a ← g.getArc x (!prev)
  let n ← g.getNbr a
  let f ← g.getArc n false
  let l ← g.getArc n true
  return (n, if f ≠ l then (if twin a = f then false else true) else prev)

/-- Pass over the inactive vertices of one side, graphNonplanar.c 265-270 and 272-277. -/
def findActive (v : Nat) : Nat → EGraph → Nat → Bool → Option (EGraph × Nat)
  | 0, _, _, _ => none
  | fuel + 1, s, x, prev => do
    let s ← s.updateFuture x v (s.p.g.N + 2)
    let a ← s.pertinent x
    let b ← s.futurePertinent x v
    if a ∨ b then return (s, x)
    else do
      let (y, prev) ← extNext s.p.g x prev
      findActive v fuel s y prev

/-- `_FindActiveVertices`, graphNonplanar.c 253-279. -/
def activeVertices (s : EGraph) (outer : Bool) (R : Nat) : Option EGraph := do
  let (x, px) ← extNext s.p.g R true
  let (y, py) ← extNext s.p.g R false
  if outer then return s.setIC { s.ic with x := x, y := y }
  else do
    let (s, x) ← findActive s.ic.v (s.p.g.vSize + 1) s x px
    let (s, y) ← findActive s.ic.v (s.p.g.vSize + 1) s y py
    return s.setIC { s.ic with x := x, y := y }

/-- The loop of `_FindPertinentVertex`, graphNonplanar.c 296-302. -/
def findPertinent (s : EGraph) : Nat → Nat → Bool → Option Nat
  | 0, _, _ => none
  | fuel + 1, w, prev =>
    if w = s.ic.y then some 0
    else do
      let a ← s.pertinent w
      if a then return w
      else do
        let (x, prev) ← extNext s.p.g w prev
        findPertinent s fuel x prev

/-- `_FindPertinentVertex`, graphNonplanar.c 290-305. -/
def pertinentVertex (s : EGraph) : Option Nat := do
  let (w, prev) ← extNext s.p.g s.ic.x true
  s.findPertinent (s.p.g.vSize + 1) w prev

/-- One side of `_SetVertexTypesForMarkingXYPath`, graphNonplanar.c 336-342 and 348-354. -/
def typeSide (X W low : Nat) : Nat → Graph → Nat → Bool → Nat → Option Graph
  | 0, _, _, _, _ => none
  | fuel + 1, g, z, prev, t =>
    if z = W then some g
    else do
      let t := if z = X then low else t
      let g ← resetObst g z t
      let (z, prev) ← extNext g z prev
      typeSide X W low fuel g z prev t

/-- `_SetVertexTypesForMarkingXYPath`, graphNonplanar.c 314-357. -/
def setTypesXY (s : EGraph) : Option (EGraph × Bool) :=
  if s.ic.r = 0 ∨ s.ic.x = 0 ∨ s.ic.y = 0 ∨ s.ic.w = 0 then some (s, false)
  else do
    let g ← clearTypes s.p.g s.ic.r
    let (z, prev) ← extNext g s.ic.r true
    let g ← typeSide s.ic.x s.ic.w 2 (g.vSize + 1) g z prev 10
    let (z, prev) ← extNext g s.ic.r false
    let g ← typeSide s.ic.y s.ic.w 6 (g.vSize + 1) g z prev 14
    return (s.setG g, true)

/-- Take the root of the blocked component off the stack, if there is one (graphNonplanar.c 157-162, stack.h 84). -/
def popRoot (g : Graph) (R : Nat) : Option (Nat × Graph) :=
  if g.stack = [] then some (R, g)
  else do
    let (_, g) ← g.pop
    g.pop

/-- `_InitializeNonplanarityContext`, graphNonplanar.c 147-191. -/
def initContext (s : EGraph) (outer : Bool) (v R : Nat) : Option (EGraph × Bool) := do
  let (R, g) ← popRoot s.p.g R
  let s := (s.setG g).setIC { v := v, r := R }
  let s ← s.orientKeep R
  let g ← clearBicomp s.p.g R
  let s ← (s.setG g).activeVertices outer R
  let w ← s.pertinentVertex
  setTypesXY (s.setIC { s.ic with w := w })

/-- `_HideInternalEdges`, graphUtils.c 1894-1899. -/
def hideInternal (x : Nat) : Nat → Graph → Nat → Option Graph
  | 0, _, _ => none
  | fuel + 1, g, e => do
    let l ← g.getArc x true
    if e = l then return g
    else do
      let g ← g.push e
      let g ← g.hideEdge e
      hideInternal x fuel g (← g.getAdj e false)

/-- `_HideInternalEdges`, graphUtils.c 1880-1902. -/
def hideInternalEdges (g : Graph) (x : Nat) : Option Graph := do
  let e ← g.getArc x false
  let l ← g.getArc x true
  if e = l then return g
  else hideInternal x g.eSize g (← g.getAdj e false)

/-- `_PopAndUnmarkVerticesAndEdges`, graphNonplanar.c 369-396. -/
def popUnmark (Z bottom : Nat) : Nat → Graph → Option Graph
  | 0, g => if g.stack.length ≤ bottom then some g else none
  | fuel + 1, g =>
    if g.stack.length ≤ bottom then some g
    else do
      let (V, g') ← g.pop
      if V = Z then return g
      else do
        let (e, g) ← g'.pop
        let g ← g.clearVisited V
        let g ← unmarkEdge g e
        popUnmark Z bottom fuel g

/-- Whether a vertex is on the RYW side (graphNonplanar.c 596-597, 668-669). -/
def onY (g : Graph) (z : Nat) : Option Bool := do
  let t ← obstType g z
  return t = 14 ∨ t = 6
/-- Whether a vertex is on the RXW side (graphNonplanar.c 640-641). -/
def onX (g : Graph) (z : Nat) : Option Bool := do
  let t ← obstType g z
  return t = 10 ∨ t = 2

/-- A vertex on the RXW side starts the path anew, graphNonplanar.c 640-646. -/
def restart (s : EGraph) (bottom Z : Nat) : Option EGraph := do
  let a ← onX s.p.g Z
  if a then do
    let g ← popUnmark 0 bottom s.p.g.stack.length s.p.g
    return (s.setG g).setIC { s.ic with px := Z }
  else return s

/-- A vertex met for the first time, graphNonplanar.c 636-673; whether the path is complete. -/
def meetNew (s : EGraph) (bottom e Z : Nat) : Option (EGraph × Bool) := do
  let s ← s.restart bottom Z
  let g ← s.p.g.push2 e Z
  let g ← g.setVisited Z
  let g ← if Z ≠ s.ic.px then markEdge g e else some g
  let b ← onY g Z
  let s := s.setG g
  if b then return (s.setIC { s.ic with py := Z }, true) else return (s, false)

/-- The walk along the proper face, graphNonplanar.c 596-675. `hi`: the target is the root. -/
def xyLoop (hi : Bool) (anti bottom : Nat) : Nat → EGraph → Nat → Nat → Option EGraph
  | 0, _, _, _ => none
  | fuel + 1, s, Z, e => do
    let b ← onY s.p.g Z
    if b then return s
    else do
      let e ← if hi then prevCirc s.p.g e else nextCirc s.p.g e
      let Z ← s.p.g.getNbr e
      let e := twin e
      let vis ← s.p.g.getVisited Z
      if vis then do
        let g ← popUnmark Z bottom s.p.g.stack.length s.p.g
        xyLoop hi anti bottom fuel (s.setG g) Z e
      else if Z = anti then do
        let g ← popUnmark 0 bottom s.p.g.stack.length s.p.g
        return s.setG g
      else do
        let (s, done) ← s.meetNew bottom e Z
        if done then return s else xyLoop hi anti bottom fuel s Z e

/-- `sp_SetCurrentSize` (stack.h 72), for a size not above the present one. -/
def cutStack (g : Graph) (n : Nat) : Option Graph :=
  if n ≤ g.stack.length then some { g with stack := g.stack.drop (g.stack.length - n) } else none

/-- `_MarkClosestXYPath`, graphNonplanar.c 547-691. -/
def closestXYPath (s : EGraph) (target : Nat) : Option (EGraph × Bool) :=
  let s := s.setIC { s.ic with px := 0, py := 0 }
  if target ≠ s.ic.r ∧ target ≠ s.ic.w then some (s, false)
  else do
    let hi := decide (target = s.ic.r)
    let bottom1 := s.p.g.stack.length
    let g ← hideInternalEdges s.p.g target
    let s := s.setG g
    let bottom2 := g.stack.length
    let e ← if hi then g.getArc s.ic.r true else g.getArc s.ic.w false
    let s ← xyLoop hi (if hi then s.ic.w else s.ic.r) bottom2 (2 * g.eSize + 2) s target e
    let g ← cutStack s.p.g bottom2
    let (g, r) ← restoreHidden g.stack.length g bottom1
    let s := s.setG g
    if r ≠ .ok then return (s, false)
    else return (if s.ic.py = 0 then s.setIC { s.ic with px := 0 } else s, true)

/-- Search the arcs of Px for the first edge of the path, graphNonplanar.c 739-745. -/
def firstMarked (g : Graph) (z : Nat) : Nat → Nat → Option Nat
  | 0, _ => none
  | fuel + 1, e => do
    let a ← g.getArc z false
    if e = a then return e
    else do
      let m ← edgeVisited g e
      if m then return e else firstMarked g z fuel (← g.getAdj e true)

/-- Follow the marked path, graphNonplanar.c 752-756; the first arc not marked. -/
def alongPath (g : Graph) : Nat → Nat → Option Nat
  | 0, _ => none
  | fuel + 1, e => do
    let m ← edgeVisited g e
    if m then do alongPath g fuel (← prevCirc g (twin e)) else return e

/-- Mark the path to the root, graphNonplanar.c 773-795. -/
def toRoot (R : Nat) : Nat → Graph → Nat → Nat → Nat → Option (Graph × Bool)
  | 0, _, _, _, _ => none
  | fuel + 1, g, Z, next, prev =>
    if Z = R then some (g, true)
    else do
      let t ← obstType g Z
      if t ≠ 0 then return (g, false)
      else do
        let Z ← g.getNbr next
        let g ← setEdgeVisited g next
        let g ← setEdgeVisited g prev
        let g ← g.setVisited Z
        let next ← prevCirc g prev
        toRoot R fuel g Z next (twin next)

/-- `_MarkZtoRPath`, graphNonplanar.c 723-800. -/
def markZtoR (s : EGraph) : Option (EGraph × Bool) := do
  let s := s.setIC { s.ic with z := 0 }
  let l ← s.p.g.getArc s.ic.px true
  let e ← firstMarked s.p.g s.ic.px (s.p.g.eSize + 1) l
  let m ← edgeVisited s.p.g e
  if !m then return (s, false)
  else do
    let e ← alongPath s.p.g (s.p.g.eSize + 1) e
    let Z ← s.p.g.getNbr (twin e)
    if Z = s.ic.py then return (s, true)
    else do
      let s := s.setIC { s.ic with z := Z }
      let (g, ok) ← toRoot s.ic.r (s.p.g.eSize + 1) s.p.g Z e (twin e)
      return (s.setG g, ok)

/-- The loop of `_FindFuturePertinenceBelowXYPath`, graphNonplanar.c 818-825. -/
def findBelow : Nat → EGraph → Nat → Bool → Option (EGraph × Nat)
  | 0, _, _, _ => none
  | fuel + 1, s, z, prev =>
    if z = s.ic.py then some (s, 0)
    else do
      let s ← s.updateFuture z s.ic.v (s.p.g.N + 2)
      let b ← s.futurePertinent z s.ic.v
      if b then return (s, z)
      else do
        let (y, prev) ← extNext s.p.g z prev
        findBelow fuel s y prev

/-- `_FindFuturePertinenceBelowXYPath`, graphNonplanar.c 811-828. -/
def belowXYPath (s : EGraph) : Option (EGraph × Nat) := do
  let (z, prev) ← extNext s.p.g s.ic.px true
  findBelow (s.p.g.vSize + 1) s z prev

/-- `gp_GetVertexLastPertinentRootChild` (graphStructures.h 432). -/
def lastRootChild (s : EGraph) (w : Nat) : Option Nat := do LC.getPrev s.roots (← s.p.rdVI w).pertinentRoots 0

def addMinor (s : EGraph) (m : Nat) : EGraph := s.setIC { s.ic with minorType := s.ic.minorType ||| m }

/-- The second half of `_ChooseTypeOfNonplanarityMinor`, graphNonplanar.c 78-118. -/
def chooseInner (s : EGraph) : Option (EGraph × Bool) := do
  let (s, ok) ← s.closestXYPath s.ic.r
  if !ok ∨ s.ic.py = 0 then return (s, false)
  else do
    let a ← obstType s.p.g s.ic.px
    let b ← obstType s.p.g s.ic.py
    if a = 10 ∨ b = 14 then return (s.addMinor 4, true)
    else do
      let (s, ok) ← s.markZtoR
      if !ok then return (s, false)
      else if s.ic.z ≠ 0 then return (s.addMinor 8, true)
      else do
        let (s, z) ← s.belowXYPath
        if z ≠ 0 then return ((s.setIC { s.ic with z := z }).addMinor 16, true) else return (s, false)

/-- Whether W has a pertinent and future pertinent child component, graphNonplanar.c 67-69. -/
def minorB (s : EGraph) (v w : Nat) : Option Bool := do
  let r ← s.p.rdVI w
  if r.pertinentRoots ≠ 0 then do
    let c ← s.lastRootChild w
    return (← s.p.getLowpoint c) < v
  else return false

/-- `_ChooseTypeOfNonplanarityMinor`, graphNonplanar.c 43-119. -/
def chooseMinor (s : EGraph) (v R : Nat) : Option (EGraph × Bool) :=
  both (s.initContext false v R) fun s => do
    let u ← s.primaryOf s.ic.r
    if u ≠ v then return (s.addMinor 1, true)
    else do
      let b ← s.minorB v s.ic.w
      if b then return (s.addMinor 2, true) else s.chooseInner

/-- `_ChooseTypeOfNonOuterplanarityMinor`, graphOuterplanarObstruction.c 48-79. -/
def chooseOuter (s : EGraph) (v R : Nat) : Option (EGraph × Bool) :=
  both (s.initContext true v R) fun s => do
    let u ← s.primaryOf s.ic.r
    if u ≠ v then return (s.addMinor 1, true)
    else do
      let r ← s.p.rdVI s.ic.w
      if r.pertinentRoots ≠ 0 then return (s.addMinor 2, true) else return (s.addMinor 16, true)

/-- The search for the least descendant, graphIsolator.c 530-541. -/
def leastDesc (p : PGraph) (anc root : Nat) : Nat → Nat → Nat → Option Nat
  | 0, e, d => if e = 0 then some d else none
  | fuel + 1, e, d =>
    if e = 0 then some d
    else do
      let w ← p.g.getNbr e
      let d := if root ≤ w ∧ (d = 0 ∨ w < d) then w else d
      let n ← p.g.getAdj e false
      let r ← p.rdVI anc
      leastDesc p anc root fuel (if n = r.fwdArcList then 0 else n) d

/-- Whether Z descends from the root of the subtree, graphIsolator.c 549-555. -/
def descends (p : PGraph) (root : Nat) : Nat → Nat → Option Bool
  | 0, _ => none
  | fuel + 1, z =>
    if z = root then some true
    else do
      let n ← p.getParent z
      if n = 0 ∨ n = z then return false else descends p root fuel n

/-- `_FindUnembeddedEdgeToSubtree`, graphIsolator.c 513-560: the descendant and whether it was found. -/
def edgeToSubtree (s : EGraph) (anc root : Nat) : Option (Nat × Bool) := do
  let root ← if s.p.g.N < root then s.childOf root else some root
  let e := (← s.p.rdVI anc).fwdArcList
  let d ← leastDesc s.p anc root s.p.g.eSize e 0
  if d = 0 then return (0, false)
  else return (d, ← descends s.p root (s.p.g.N + 2) d)

/-- The least ancestor over the separated children, graphIsolator.c 455-464. -/
def leastOver (s : EGraph) (cut : Nat) : Nat → Nat → Nat → Nat → Option (Nat × Nat)
  | 0, c, a, f => if c = 0 then some (a, f) else none
  | fuel + 1, c, a, f =>
    if c = 0 then some (a, f)
    else do
      let arc ← s.p.g.getArc (c + s.p.g.N) false
      let low ← s.p.getLowpoint c
      let n ← s.nextChild cut c
      if arc ≠ 0 ∧ low < a then leastOver s cut fuel n low c else leastOver s cut fuel n a f

/-- `_FindUnembeddedEdgeToAncestor`, graphIsolator.c 447-477: the ancestor, the descendant, and whether they were found. -/
def edgeToAncestor (s : EGraph) (cut : Nat) : Option (Nat × Nat × Bool) := do
  let r ← s.p.rdVI cut
  let (a, c) ← s.leastOver cut (s.p.g.N + 2) r.futurePertinentChild r.leastAncestor 0
  if a = r.leastAncestor then return (a, cut, true)
  else do
    let (d, ok) ← s.edgeToSubtree a c
    return (a, d, ok)

/-- `_FindUnembeddedEdgeToCurVertex`, graphIsolator.c 488-502. -/
def edgeToCur (s : EGraph) (cut : Nat) : Option (Nat × Bool) := do
  let r ← s.p.rdVI cut
  if r.pertinentEdge ≠ 0 then return (cut, true) else s.edgeToSubtree s.ic.v r.pertinentRoots

/-- The connections of minor B, graphIsolator.c 121-127. -/
def contextB (s : EGraph) : Option (EGraph × Bool) := do
  let c ← s.lastRootChild s.ic.w
  let uz ← s.p.getLowpoint c
  let s := s.setIC { s.ic with uz := uz }
  let (d, ok) ← s.edgeToSubtree s.ic.v c
  let s := s.setIC { s.ic with dw := d }
  if !ok then return (s, false)
  else do
    let (d, ok) ← s.edgeToSubtree s.ic.uz c
    return (s.setIC { s.ic with dz := d }, ok)

/-- The connections of the other minors, graphIsolator.c 136-141. -/
def contextOther (s : EGraph) : Option (EGraph × Bool) := do
  let (d, ok) ← s.edgeToCur s.ic.w
  let s := s.setIC { s.ic with dw := d }
  if !ok then return (s, false)
  else if s.ic.minorType &&& 16 ≠ 0 then do
    let (u, d, ok) ← s.edgeToAncestor s.ic.z
    return (s.setIC { s.ic with uz := u, dz := d }, ok)
  else return (s, true)

/-- `_InitializeIsolatorContext`, graphIsolator.c 104-145. -/
def isolatorContext (s : EGraph) : Option (EGraph × Bool) := do
  let (u, d, ok) ← s.edgeToAncestor s.ic.x
  let s := s.setIC { s.ic with ux := u, dx := d }
  if !ok then return (s, false)
  else do
    let (u, d, ok) ← s.edgeToAncestor s.ic.y
    let s := s.setIC { s.ic with uy := u, dy := d }
    if !ok then return (s, false)
    else if s.ic.minorType &&& 2 ≠ 0 then s.contextB else s.contextOther

/-- The loop of `_MarkPathAlongBicompExtFace`, graphIsolator.c 583-593. -/
def markExtLoop (last : Nat) : Nat → Graph → Nat → Bool → Option Graph
  | 0, _, _, _ => none
  | fuel + 1, g, z, prev => do
    let (z, prev) ← extNext g z prev
    let a ← g.getArc z prev
    let g ← markEdge g a
    let g ← g.setVisited z
    if z = last then return g else markExtLoop last fuel g z prev

/-- `_MarkPathAlongBicompExtFace`, graphIsolator.c 570-596. -/
def markExt (s : EGraph) (a b : Nat) : Option (EGraph × Bool) := do
  let g ← s.p.g.setVisited a
  let g ← markExtLoop b (g.vSize + 1) g a true
  return (s.setG g, true)

/-- The arc to the parent, graphIsolator.c 643-653. -/
def parentArc (g : Graph) : Nat → Nat → Option Nat
  | 0, e => if e = 0 then some 0 else none
  | fuel + 1, e =>
    if e = 0 then some 0
    else do
      let t ← g.getType e
      if t = 6 then return e else parentArc g fuel (← g.getAdj e false)

/-- The loop of `_MarkDFSPath`, graphIsolator.c 626-667. -/
def markDFSLoop (anc : Nat) : Nat → EGraph → Nat → Option (EGraph × Bool)
  | 0, _, _ => none
  | fuel + 1, s, d =>
    if d = anc then some (s, true)
    else if d = 0 then some (s, false)
    else if s.p.g.N < d then do
      let u ← s.primaryOf d
      let g ← s.p.g.setVisited u
      markDFSLoop anc fuel (s.setG g) u
    else do
      let a ← s.p.g.getArc d false
      let e ← parentArc s.p.g s.p.g.eSize a
      let u ← if e ≠ 0 then s.p.g.getNbr e else some 0
      if u = 0 then return (s, false)
      else do
        let g ← markEdge s.p.g e
        let g ← g.setVisited u
        markDFSLoop anc fuel (s.setG g) u

/-- `_MarkDFSPath`, graphIsolator.c 612-670. -/
def markDFS (s : EGraph) (anc desc : Nat) : Option (EGraph × Bool) := do
  let d ← if s.p.g.N < desc then s.primaryOf desc else some desc
  let g ← s.p.g.setVisited d
  markDFSLoop anc (s.p.g.vSize + 1) (s.setG g) d

/-- `_MarkDFSPathsToDescendants`, graphIsolator.c 676-693. -/
def markPaths (s : EGraph) : Option (EGraph × Bool) :=
  both (s.markDFS s.ic.x s.ic.dx) fun s =>
  both (s.markDFS s.ic.y s.ic.dy) fun s =>
  both (if s.ic.dw ≠ 0 then s.markDFS s.ic.w s.ic.dw else some (s, true)) fun s =>
  if s.ic.dz ≠ 0 then s.markDFS s.ic.w s.ic.dz else some (s, true)

/-- The search for the forward arc to a descendant, graphIsolator.c 753-762. -/
def findFwd (p : PGraph) (anc desc : Nat) : Nat → Nat → Option Nat
  | 0, e => if e = 0 then some 0 else none
  | fuel + 1, e =>
    if e = 0 then some 0
    else do
      let w ← p.g.getNbr e
      if w = desc then return e
      else do
        let n ← p.g.getAdj e false
        let r ← p.rdVI anc
        findFwd p anc desc fuel (if n = r.fwdArcList then 0 else n)

/-- Put an arc before the first one of a list, graphIsolator.c 782-785 and 788-791. If the list is empty, the record of index
NIL is written, and the last arc is not set. -/
def putFirst (g : Graph) (v e : Nat) : Option Graph := do
  let g ← g.setAdj e true 0
  let g ← g.setAdj e false (← g.getArc v false)
  let g ← g.setAdj (← g.getArc v false) true e
  g.setArc v false e

/-- `_AddBackEdge`, graphIsolator.c 747-794. -/
def addBackEdge (s : EGraph) (anc desc : Nat) : Option EGraph := do
  let f ← findFwd s.p anc desc s.p.g.eSize (← s.p.rdVI anc).fwdArcList
  if f = 0 then return s
  else do
    let p ← takeFwd s.p anc f
    let g ← putFirst p.g anc f
    let g ← putFirst g desc (twin f)
    let g ← g.setNbr (twin f) anc
    return s.setP (p.setG g)

/-- `_AddAndMarkEdge`, graphIsolator.c 725-737. -/
def addMarkEdge (s : EGraph) (anc desc : Nat) : Option (EGraph × Bool) := do
  let s ← s.addBackEdge anc desc
  let g ← s.p.g.setVisited anc
  let g ← setEdgeVisited g (← g.getArc anc false)
  let g ← setEdgeVisited g (← g.getArc desc false)
  let g ← g.setVisited desc
  return (s.setG g, true)

/-- `_AddAndMarkUnembeddedEdges`, graphIsolator.c 699-716. -/
def addMarkEdges (s : EGraph) : Option (EGraph × Bool) :=
  both (s.addMarkEdge s.ic.ux s.ic.dx) fun s =>
  both (s.addMarkEdge s.ic.uy s.ic.dy) fun s =>
  both (if s.ic.dw ≠ 0 then s.addMarkEdge s.ic.v s.ic.dw else some (s, true)) fun s =>
  if s.ic.dz ≠ 0 then s.addMarkEdge s.ic.uz s.ic.dz else some (s, true)

/-- `_JoinBicomps` as a call that returns OK, graphEmbed.c 1291-1304. -/
def joinOk (s : EGraph) : Option (EGraph × Bool) := do return (← s.joinBicomps, true)

def min3 (a b c : Nat) : Nat := min (min a b) c
def max3 (a b c : Nat) : Nat := max (max a b) c

/-- `_IsolateMinorA`, graphIsolator.c 151-163. -/
def isolateA (s : EGraph) : Option (EGraph × Bool) :=
  both (s.markExt s.ic.r s.ic.r) fun s =>
  both (s.markDFS (min s.ic.ux s.ic.uy) s.ic.r) fun s =>
  both s.markPaths fun s =>
  both s.joinOk addMarkEdges

/-- `_IsolateMinorB`, graphIsolator.c 169-182. -/
def isolateB (s : EGraph) : Option (EGraph × Bool) :=
  both (s.markExt s.ic.r s.ic.r) fun s =>
  both (s.markDFS (min3 s.ic.ux s.ic.uy s.ic.uz) (max3 s.ic.ux s.ic.uy s.ic.uz)) fun s =>
  both s.markPaths fun s =>
  both s.joinOk addMarkEdges

/-- The part of the outer face kept in minor C, graphIsolator.c 192-205. -/
def markC (s : EGraph) : Option (EGraph × Bool) := do
  let t ← obstType s.p.g s.ic.px
  if t = 10 then do
    let u ← obstType s.p.g s.ic.py
    s.markExt s.ic.r (if u = 14 then s.ic.py else s.ic.y)
  else s.markExt s.ic.x s.ic.r

/-- `_IsolateMinorC`, graphIsolator.c 188-214. -/
def isolateC (s : EGraph) : Option (EGraph × Bool) :=
  both s.markC fun s =>
  both s.markPaths fun s =>
  both (s.markDFS (min s.ic.ux s.ic.uy) s.ic.r) fun s =>
  both s.joinOk addMarkEdges

/-- `_IsolateMinorD`, graphIsolator.c 220-233. -/
def isolateD (s : EGraph) : Option (EGraph × Bool) :=
  both (s.markExt s.ic.x s.ic.y) fun s =>
  both (s.markDFS (min s.ic.ux s.ic.uy) s.ic.r) fun s =>
  both s.markPaths fun s =>
  both s.joinOk addMarkEdges

/-- `_IsolateMinorE1`, graphIsolator.c 283-311. -/
def isolateE1 (s : EGraph) : Option (EGraph × Bool) := do
  let t ← obstType s.p.g s.ic.z
  if t = 2 then do
    let g ← resetObst s.p.g s.ic.px 10
    let ic := { s.ic with x := s.ic.z, ux := s.ic.uz, dx := s.ic.dz }
    let ic := { ic with z := 0, uz := 0, dz := 0, minorType := (ic.minorType ^^^ 16) ||| 36 }
    ((s.setG g).setIC ic).isolateC
  else if t = 6 then do
    let g ← resetObst s.p.g s.ic.py 14
    let ic := { s.ic with y := s.ic.z, uy := s.ic.uz, dy := s.ic.dz }
    let ic := { ic with z := 0, uz := 0, dz := 0, minorType := (ic.minorType ^^^ 16) ||| 36 }
    ((s.setG g).setIC ic).isolateC
  else return (s, false)

/-- `_IsolateMinorE2`, graphIsolator.c 320-336. -/
def isolateE2 (s : EGraph) : Option (EGraph × Bool) := do
  let g ← clearFlags s.p.g
  let ic := { s.ic with v := s.ic.uz, dw := s.ic.dz }
  let ic := { ic with z := 0, uz := 0, dz := 0, minorType := (ic.minorType ^^^ 16) ||| 65 }
  ((s.setG g).setIC ic).isolateA

/-- `_IsolateMinorE3`, graphIsolator.c 342-368. -/
def isolateE3 (s : EGraph) : Option (EGraph × Bool) :=
  both (if s.ic.ux < s.ic.uy then both (s.markExt s.ic.r s.ic.px) fun s => s.markExt s.ic.w s.ic.y
    else both (s.markExt s.ic.x s.ic.w) fun s => s.markExt s.ic.py s.ic.r) fun s =>
  both (s.markDFS (min3 s.ic.ux s.ic.uy s.ic.uz) s.ic.r) fun s =>
  both s.markPaths fun s =>
  both s.joinOk fun s =>
  both s.addMarkEdges fun s => some (s.addMinor 128, true)

/-- `_IsolateMinorE4`, graphIsolator.c 374-401. -/
def isolateE4 (s : EGraph) : Option (EGraph × Bool) :=
  both (if s.ic.px ≠ s.ic.x then both (s.markExt s.ic.r s.ic.w) fun s => s.markExt s.ic.py s.ic.r
    else both (s.markExt s.ic.r s.ic.px) fun s => s.markExt s.ic.w s.ic.r) fun s =>
  both (s.markDFS (min3 s.ic.ux s.ic.uy s.ic.uz) (max3 s.ic.ux s.ic.uy s.ic.uz)) fun s =>
  both s.markPaths fun s =>
  both s.joinOk fun s =>
  both s.addMarkEdges fun s => some (s.addMinor 256, true)

/-- The K5 case of `_IsolateMinorE`, graphIsolator.c 266-273. -/
def isolateK5 (s : EGraph) : Option (EGraph × Bool) :=
  both (s.markExt s.ic.r s.ic.r) fun s =>
  both (s.markDFS (min3 s.ic.ux s.ic.uy s.ic.uz) s.ic.r) fun s =>
  both s.markPaths fun s =>
  both s.joinOk addMarkEdges

/-- `_IsolateMinorE`, graphIsolator.c 239-274. -/
def isolateE (s : EGraph) : Option (EGraph × Bool) :=
  if s.ic.z ≠ s.ic.w then s.isolateE1
  else if max s.ic.ux s.ic.uy < s.ic.uz then s.isolateE2
  else if s.ic.uz < max s.ic.ux s.ic.uy ∧ s.ic.ux ≠ s.ic.uy then s.isolateE3
  else if s.ic.x ≠ s.ic.px ∨ s.ic.y ≠ s.ic.py then s.isolateE4
  else s.isolateK5

/-- Put all forward arcs of a vertex back, graphIsolator.c 813-814. -/
def putBack (v : Nat) : Nat → EGraph → Option EGraph
  | 0, s => do if (← s.p.rdVI v).fwdArcList = 0 then return s else none
  | fuel + 1, s => do
    let e := (← s.p.rdVI v).fwdArcList
    if e = 0 then return s
    else do
      let w ← s.p.g.getNbr e
      let s ← s.addBackEdge v w
      putBack v fuel s

/-- Delete the unmarked edges of a vertex, graphIsolator.c 823-829. -/
def deleteLoop : Nat → Graph → Nat → Option Graph
  | 0, g, e => if e = 0 then some g else none
  | fuel + 1, g, e =>
    if e = 0 then some g
    else do
      let m ← edgeVisited g e
      if m then do deleteLoop fuel g (← g.getAdj e false)
      else do
        let (g, n) ← g.deleteEdge e 0
        deleteLoop fuel g n

/-- `_DeleteUnmarkedVerticesAndEdges`, graphIsolator.c 802-833. -/
def deleteUnmarked (s : EGraph) : Option (EGraph × Bool) := do
  let s ← (List.range s.p.g.N).foldlM (fun s i => putBack (i + 1) s.p.g.eSize s) s
  let g ← (List.range s.p.g.N).foldlM (fun g i => do deleteLoop g.eSize g (← g.getArc (i + 1) false)) s.p.g
  return (s.setG g, true)

/-- The choice of the isolator, graphIsolator.c 79-90. -/
def isolateMinor (s : EGraph) : Option (EGraph × Bool) :=
  if s.ic.minorType &&& 1 ≠ 0 then s.isolateA
  else if s.ic.minorType &&& 2 ≠ 0 then s.isolateB
  else if s.ic.minorType &&& 4 ≠ 0 then s.isolateC
  else if s.ic.minorType &&& 8 ≠ 0 then s.isolateD
  else if s.ic.minorType &&& 16 ≠ 0 then s.isolateE
  else some (s, false)

/-- `_IsolateKuratowskiSubgraph`, graphIsolator.c 58-98. -/
def isolateKuratowski (s : EGraph) (v R : Nat) : Option (EGraph × Bool) := do
  let g ← clearFlags s.p.g
  both ((s.setG g).chooseMinor v R) fun s =>
    both s.isolatorContext fun s =>
    both s.isolateMinor deleteUnmarked

/-- The connection of w with the current vertex, graphOuterplanarObstruction.c 103-117. -/
def outerContext (s : EGraph) : Option (EGraph × Bool) := do
  let (d, ok) ← if s.ic.minorType &&& 2 ≠ 0 then do
      let c ← s.lastRootChild s.ic.w
      s.edgeToSubtree s.ic.v c
    else s.edgeToCur s.ic.w
  return (s.setIC { s.ic with dw := d }, ok)

/-- The path of minor E, graphOuterplanarObstruction.c 121-125. -/
def outerPath (s : EGraph) : Option (EGraph × Bool) :=
  if s.ic.minorType &&& 16 ≠ 0 then do
    let (s, ok) ← s.closestXYPath s.ic.r
    return (s, ok && s.ic.py ≠ 0)
  else some (s, true)

/-- `_IsolateOuterplanarityObstructionA`, graphOuterplanarObstruction.c 150-162. -/
def isolateOuterA (s : EGraph) : Option (EGraph × Bool) :=
  both (s.markExt s.ic.r s.ic.r) fun s =>
  both (s.markDFS s.ic.v s.ic.r) fun s =>
  both (s.markDFS s.ic.w s.ic.dw) fun s =>
  both s.joinOk fun s => s.addMarkEdge s.ic.v s.ic.dw

/-- `_IsolateOuterplanarityObstructionB`, graphOuterplanarObstruction.c 168-179, and
`_IsolateOuterplanarityObstructionE`, 185-196. -/
def isolateOuterBE (s : EGraph) : Option (EGraph × Bool) :=
  both (s.markExt s.ic.r s.ic.r) fun s =>
  both (s.markDFS s.ic.w s.ic.dw) fun s =>
  both s.joinOk fun s => s.addMarkEdge s.ic.v s.ic.dw

/-- The choice of the isolator, graphOuterplanarObstruction.c 129-136. -/
def isolateOuterMinor (s : EGraph) : Option (EGraph × Bool) :=
  if s.ic.minorType &&& 1 ≠ 0 then s.isolateOuterA
  else if s.ic.minorType &&& 2 ≠ 0 then s.isolateOuterBE
  else if s.ic.minorType &&& 16 ≠ 0 then s.isolateOuterBE
  else some (s, false)

/-- `_IsolateOuterplanarObstruction`, graphOuterplanarObstruction.c 85-144. -/
def isolateOuter (s : EGraph) (v R : Nat) : Option (EGraph × Bool) := do
  let g ← clearFlags s.p.g
  both ((s.setG g).chooseOuter v R) fun s =>
    both s.outerContext fun s =>
    both s.outerPath fun s =>
    both s.isolateOuterMinor deleteUnmarked

/-- The isolation in `_HandleBlockedBicomp`, graphEmbed.c 1027-1036. -/
def isolate (s : EGraph) (outer : Bool) : Option (EGraph × Bool) :=
  if outer then s.isolateOuter s.ic.v s.ic.r else s.isolateKuratowski s.ic.v s.ic.r

/-- `gp_Embed`, graphEmbed.c 79-139, with its result code. -/
def gpEmbed (s : EGraph) (outer : Bool) : Option (EGraph × Res) := do
  let (s, r) ← s.embed outer
  match r with
  | .ok => return (s, .ok)
  | .notok => return (s, .notok)
  | .blocked => do
    let (s, ok) ← s.isolate outer
    return (s, if ok then .nonembeddable else .notok)

end EGraph
end Verif
