import Verif.Graph.Model

/-
Model of the direction macro and of the neighbour and degree queries.
-/
namespace Verif
namespace Graph

/-- EDGEFLAG_DIRECTION_INONLY (graphStructures.h 140). -/
def INONLY : Nat := 32
/-- EDGEFLAG_DIRECTION_OUTONLY (graphStructures.h 141). -/
def OUTONLY : Nat := 64
/-- EDGEFLAG_DIRECTION_MASK (graphStructures.h 142). -/
def DIRMASK : Nat := 96

/-- Clearing the direction bits: `flags &= ~EDGEFLAG_DIRECTION_MASK`. C does this on 32-bit
unsigned values; on a `Nat` it is subtraction of the selected bits. -/
def clearDir (f : Nat) : Nat := f - (f &&& DIRMASK)

/-- `gp_GetDirection` (graphStructures.h 145). -/
def getDirection (g : Graph) (e : Nat) : Option Nat := do return (← g.rdE e).flags &&& DIRMASK

/-- `gp_SetDirection` (graphStructures.h 149-166). -/
def setDirection (g : Graph) (e : Nat) (d : Nat) : Option Graph := do
  let r ← g.rdE e
  let f := if d = INONLY then r.flags ||| INONLY
    else if d = OUTONLY then r.flags ||| OUTONLY else clearDir r.flags
  let g ← g.wrE e { r with flags := f }
  let t ← g.rdE (twin e)
  let f' := if d = INONLY then t.flags ||| OUTONLY
    else if d = OUTONLY then t.flags ||| INONLY else clearDir t.flags
  g.wrE (twin e) { t with flags := f' }

/-- Loop of `gp_IsNeighbor` (graphUtils.c 1368-1378). -/
def isNeighborLoop (g : Graph) (v : Nat) : Nat → Nat → Option Bool
  | 0, e => if e = 0 then some false else none
  | fuel + 1, e =>
    if e = 0 then some false
    else do
      let r ← g.rdE e
      if r.nbr = v ∧ r.flags &&& DIRMASK ≠ INONLY then return true
      else g.isNeighborLoop v fuel r.next

/-- `gp_IsNeighbor`, graphUtils.c 1364-1379. -/
def isNeighbor (g : Graph) (u v : Nat) : Option Bool := do
  g.isNeighborLoop v g.eSize (← g.rdV u).first

/-- Loop of `gp_GetNeighborEdgeRecord` (graphUtils.c 1402-1409). -/
def neighborEdgeLoop (g : Graph) (v : Nat) : Nat → Nat → Option Nat
  | 0, e => if e = 0 then some 0 else none
  | fuel + 1, e =>
    if e = 0 then some 0
    else do
      let r ← g.rdE e
      if r.nbr = v then return e
      else g.neighborEdgeLoop v fuel r.next

/-- `gp_GetNeighborEdgeRecord`, graphUtils.c 1395-1410 (NIL = 0 vertices give NIL). -/
def neighborEdge (g : Graph) (u v : Nat) : Option Nat :=
  if u = 0 ∨ v = 0 then some 0
  else do g.neighborEdgeLoop v g.eSize (← g.rdV u).first

/-- Loop of the three degree functions: count the arcs whose direction is not `skip`
(graphUtils.c 1438-1443, 1470-1476, 1503-1509). Direction values are 0, 32, 64, 96, so
`skip = 1` counts everything. -/
def degreeLoop (g : Graph) (skip : Nat) : Nat → Nat → Nat → Option Nat
  | 0, e, d => if e = 0 then some d else none
  | fuel + 1, e, d =>
    if e = 0 then some d
    else do
      let r ← g.rdE e
      g.degreeLoop skip fuel r.next (if r.flags &&& DIRMASK ≠ skip then d + 1 else d)

/-- `gp_GetVertexDegree`, graphUtils.c 1429-1446. -/
def degree (g : Graph) (v : Nat) : Option Nat :=
  if v = 0 then some 0 else do g.degreeLoop 1 g.eSize (← g.rdV v).first 0
/-- `gp_GetVertexInDegree`, graphUtils.c 1461-1479. -/
def inDegree (g : Graph) (v : Nat) : Option Nat :=
  if v = 0 then some 0 else do g.degreeLoop OUTONLY g.eSize (← g.rdV v).first 0
/-- `gp_GetVertexOutDegree`, graphUtils.c 1494-1512. -/
def outDegree (g : Graph) (v : Nat) : Option Nat :=
  if v = 0 then some 0 else do g.degreeLoop INONLY g.eSize (← g.rdV v).first 0

end Graph
end Verif
