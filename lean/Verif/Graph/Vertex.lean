import Verif.Graph.Query

/-
Model of hiding, identifying and restoring vertices (graphUtils.c 1880-2329).
-/
namespace Verif
namespace Graph

/-- `sp_Push` on theStack (stack.h 78, macro version: no check, so writing past the allocated
array is undefined). -/
def push (g : Graph) (x : Nat) : Option Graph :=
  if g.stack.length < g.stackCap then some { g with stack := x :: g.stack } else none

/-- `sp_Pop` on theStack (stack.h 81, macro version: popping an empty stack is undefined). -/
def pop (g : Graph) : Option (Nat × Graph) :=
  match g.stack with
  | x :: s => some (x, { g with stack := s })
  | [] => none

/-- `gp_GetVertexVisited` (graphStructures.h 286). -/
def getVisited (g : Graph) (v : Nat) : Option Bool := do return (← g.rdV v).flags % 2 = 1
/-- `gp_SetVertexVisited` (graphStructures.h 288): `flags |= 1`. -/
def setVisited (g : Graph) (v : Nat) : Option Graph := do
  let r ← g.rdV v
  g.wrV v { r with flags := r.flags ||| 1 }
/-- `gp_ClearVertexVisited` (graphStructures.h 287): `flags &= ~1`. -/
def clearVisited (g : Graph) (v : Nat) : Option Graph := do
  let r ← g.rdV v
  g.wrV v { r with flags := r.flags / 2 * 2 }

/-- Loop of `_HideVertex` (graphUtils.c 1965-1970): push and hide each arc; the next arc is read
from the hidden record. -/
def hideVertexLoop : Nat → Graph → Nat → Option Graph
  | 0, g, e => if e = 0 then some g else none
  | fuel + 1, g, e =>
    if e = 0 then some g
    else do
      let g ← g.push e
      let g ← g.hideEdge e
      hideVertexLoop fuel g (← g.getAdj e false)

/-- `gp_HideVertex` / `_HideVertex`, graphUtils.c 1951-1982. -/
def hideVertex (g : Graph) (v : Nat) : Option (Graph × Res) :=
  if v = 0 then some (g, .notok)
  else do
    let bottom := g.stack.length
    let g ← hideVertexLoop g.eSize g (← g.getArc v false)
    let g ← g.push bottom
    let g ← g.push 0
    let g ← g.push 0
    let g ← g.push 0
    let g ← g.push 0
    let g ← g.push 0
    let g ← g.push v
    return (g, .ok)

/-- `_RestoreHiddenEdges`, graphUtils.c 1925-1938. The fuel is the stack height. -/
def restoreHidden : Nat → Graph → Nat → Option (Graph × Res)
  | 0, g, bottom => if g.stack.length > bottom then none else some (g, .ok)
  | fuel + 1, g, bottom =>
    if g.stack.length > bottom then do
      let (e, g) ← g.pop
      if e = 0 then return (g, .notok)
      let g ← g.restoreEdge e
      restoreHidden fuel g bottom
    else some (g, .ok)

/-- Loop of `_RestoreVertex` (graphUtils.c 2293-2298) giving the moved arcs back to `v`. -/
def giveBackLoop : Nat → Graph → (v eLast e : Nat) → Option Graph
  | 0, g, _, _, e => if e = 0 then some g else none
  | fuel + 1, g, v, eLast, e =>
    if e = 0 then some g
    else do
      let g ← g.setNbr (twin e) v
      let n ← if e = eLast then some 0 else g.getAdj e false
      giveBackLoop fuel g v eLast n

/-- Close the gap in u's list (graphUtils.c 2260-2277). -/
def closeGap (g : Graph) (u pred succ : Nat) : Option Graph :=
  if pred ≠ 0 then do
    let g ← g.setAdj pred false succ
    if succ ≠ 0 then g.setAdj succ true pred else g.setArc u true pred
  else if succ ≠ 0 then do
    let g ← g.setAdj succ true 0
    g.setArc u false succ
  else do
    let g ← g.setArc u false 0
    g.setArc u true 0

/-- `if (e != NIL) gp_SetPrevArc(theGraph, e, NIL)` (graphUtils.c 2285-2288). -/
def clearPrev (g : Graph) (e : Nat) : Option Graph :=
  if e ≠ 0 then g.setAdj e true 0 else some g

/-- The part of `_RestoreVertex` for an identified vertex (graphUtils.c 2254-2299). Line 2288
assigns the previous link (not the next link) of `e_v_last`, as the code does. -/
def unmerge (g : Graph) (u v pred vFirst vLast succ : Nat) : Option Graph := do
  let g ← g.closeGap u pred succ
  let g ← g.setArc v false vFirst
  let g ← g.setArc v true vLast
  let g ← g.clearPrev vFirst
  let g ← g.clearPrev vLast
  giveBackLoop g.eSize g v vLast vFirst

/-- `_RestoreVertex`, graphUtils.c 2239-2305. -/
def restoreVertex (g : Graph) : Option (Graph × Res) :=
  if g.stack.length < 7 then some (g, .notok)
  else do
    let (v, g) ← g.pop
    let (u, g) ← g.pop
    let (pred, g) ← g.pop
    let (vFirst, g) ← g.pop
    let (vLast, g) ← g.pop
    let (succ, g) ← g.pop
    let g ← if u ≠ 0 then g.unmerge u v pred vFirst vLast succ else some g
    let (bottom, g) ← g.pop
    restoreHidden g.stack.length g bottom

/-- `gp_RestoreVertices`, graphUtils.c 2319-2329. Each round shortens the stack, so its height
is enough fuel. -/
def restoreVertices : Nat → Graph → Option (Graph × Res)
  | 0, g => if g.stack.length > 0 then none else some (g, .ok)
  | fuel + 1, g =>
    if g.stack.length > 0 then do
      let (g, r) ← g.restoreVertex
      if r ≠ .ok then return (g, .notok)
      restoreVertices fuel g
    else some (g, .ok)

/-- First loop of `_IdentifyVertices` (graphUtils.c 2096-2104): mark the neighbours of u. -/
def markLoop : Nat → Graph → Nat → Option (Graph × Res)
  | 0, g, e => if e = 0 then some (g, .ok) else none
  | fuel + 1, g, e =>
    if e = 0 then some (g, .ok)
    else do
      let n ← g.getNbr e
      if (← g.getVisited n) then return (g, .notok)
      let g ← g.setVisited n
      markLoop fuel g (← g.getAdj e false)

/-- Second loop (graphUtils.c 2108-2117): hide the arcs of v to marked vertices. -/
def hideMarkedLoop : Nat → Graph → Nat → Option Graph
  | 0, g, e => if e = 0 then some g else none
  | fuel + 1, g, e =>
    if e = 0 then some g
    else do
      let n ← g.getNbr e
      let g ← if (← g.getVisited n) then do
          let g ← g.push e
          g.hideEdge e
        else some g
      hideMarkedLoop fuel g (← g.getAdj e false)

/-- Third loop (graphUtils.c 2120-2125): clear the marks. -/
def unmarkLoop : Nat → Graph → Nat → Option Graph
  | 0, g, e => if e = 0 then some g else none
  | fuel + 1, g, e =>
    if e = 0 then some g
    else do
      let g ← g.clearVisited (← g.getNbr e)
      unmarkLoop fuel g (← g.getAdj e false)

/-- Fourth loop (graphUtils.c 2149-2154): the twins of v's arcs now point to u. -/
def retargetLoop : Nat → Graph → (u e : Nat) → Option Graph
  | 0, g, _, e => if e = 0 then some g else none
  | fuel + 1, g, u, e =>
    if e = 0 then some g
    else do
      let g ← g.setNbr (twin e) u
      retargetLoop fuel g u (← g.getAdj e false)

/-- Join the predecessor in u's list to v's first arc (graphUtils.c 2160-2168). -/
def splicePred (g : Graph) (u pred f : Nat) : Option Graph :=
  if pred ≠ 0 then do
    let g ← g.setAdj pred false f
    g.setAdj f true pred
  else g.setArc u false f

/-- Join v's last arc to its successor in u's list (graphUtils.c 2170-2183). -/
def spliceSucc (g : Graph) (u before l : Nat) : Option Graph :=
  if before ≠ 0 then
    if l ≠ 0 then do
      let g ← g.setAdj l false before
      g.setAdj before true l
    else some g
  else g.setArc u true l

/-- List union of v's list into u's list (graphUtils.c 2157-2187). -/
def splice (g : Graph) (u v pred before : Nat) : Option Graph := do
  let f ← g.getArc v false
  if f ≠ 0 then
    let g ← g.splicePred u pred f
    let l ← g.getArc v true
    let g ← g.spliceSucc u before l
    let g ← g.setArc v false 0
    g.setArc v true 0
  else return g

/-- The arc of u that precedes the insertion point (graphUtils.c 2134-2137). -/
def predOf (g : Graph) (u before : Nat) : Option Nat :=
  if before ≠ 0 then g.getAdj before true else g.getArc u true

/-- The part of `_IdentifyVertices` for non-adjacent vertices (graphUtils.c 2090-2190). -/
def identifyApart (g : Graph) (u v before : Nat) : Option (Graph × Res) := do
  let bottom := g.stack.length
  let (g, r) ← markLoop g.eSize g (← g.getArc u false)
  if r ≠ .ok then return (g, r)
  let g ← hideMarkedLoop g.eSize g (← g.getArc v false)
  let g ← unmarkLoop g.eSize g (← g.getArc u false)
  let g ← g.push bottom
  let pred ← g.predOf u before
  let g ← g.push before
  let g ← g.push (← g.getArc v true)
  let g ← g.push (← g.getArc v false)
  let g ← g.push pred
  let g ← g.push u
  let g ← g.push v
  let g ← retargetLoop g.eSize g u (← g.getArc v false)
  let g ← g.splice u v pred before
  return (g, .ok)

/-- `sp_Set (theStack, size - 7, sp_Get (theStack, size - 7) - 1)` (graphUtils.c 2082-2085). The
decremented value is at least 1 because the contraction pushed an entry before recording it. -/
def lowerBottom (g : Graph) : Option Graph :=
  match g.stack with
  | a :: b :: c :: d :: e :: f :: bottom :: s =>
    if bottom = 0 then none
    else some { g with stack := a :: b :: c :: d :: e :: f :: (bottom - 1) :: s }
  | _ => none

mutual
/-- `_ContractEdge`, graphUtils.c 2002-2017. Mutually recursive with `_IdentifyVertices`. -/
def contract : Nat → Graph → Nat → Option (Graph × Res)
  | 0, _, _ => none
  | fuel + 1, g, e =>
    if e = 0 then some (g, .notok)
    else do
      let u ← g.getNbr (twin e)
      let v ← g.getNbr e
      let before ← g.getAdj e false
      let g ← g.push e
      let g ← g.hideEdge e
      identify fuel g u v before
/-- `_IdentifyVertices`, graphUtils.c 2059-2191. -/
def identify : Nat → Graph → (u v before : Nat) → Option (Graph × Res)
  | 0, _, _, _, _ => none
  | fuel + 1, g, u, v, before => do
    let e ← g.neighborEdge u v
    if e ≠ 0 then
      let (g, r) ← contract fuel g e
      let g ← g.lowerBottom
      return (g, r)
    else g.identifyApart u v before
end

/-- Enough recursion depth for any graph: two calls per edge between the two vertices. -/
def depth (g : Graph) : Nat := 2 * g.eSize + 2
/-- `gp_IdentifyVertices`, graphUtils.c 2054-2057. -/
def identifyVertices (g : Graph) (u v before : Nat) : Option (Graph × Res) :=
  identify g.depth g u v before
/-- `gp_ContractEdge`, graphUtils.c 1994-2000. -/
def contractEdge (g : Graph) (e : Nat) : Option (Graph × Res) := contract g.depth g e

end Graph
end Verif
