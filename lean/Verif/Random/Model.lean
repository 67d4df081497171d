import Verif.DFS.Model
import Verif.Graph.Query

/-
Model of the random graph generators (graphUtils.c 1073-1351).

The values returned by rand() are given as a stream `rnd`; `i` is the number of values taken. Results are
`Option` (`none`: undefined behaviour); loops that take random numbers run for `fuel` rounds and
report `none` as return code when they have not finished by then.
-/
namespace Verif
namespace Random

/-- The result of an `int` computation: undefined if it overflows. -/
def ckInt (x : Int) : Option Int := if -2147483648 ≤ x ∧ x < 2147483648 then some x else none

/-- The second addition of `_GetRandomNumber` (graphUtils.c 1138), on the 32 bits of `N`. The operands are `int`; if `N` is
negative (bit 31 set) the sum stays negative. -/
def addHigh (n : Nat) : Option Nat :=
  if 2147483648 ≤ n then some (n + n / 256 % 256)
  else if n + n / 256 % 256 < 2147483648 then some (n + n / 256 % 256)
  else none

/-- `_GetRandomNumber`, graphUtils.c 1130-1142, if rand() returns `r`. The first addition is unsigned since
0xFFFF0000 is; the conversion back to `int` is taken to keep the bits (implementation defined, gcc). -/
def number (r : Nat) (lo hi : Int) : Option Int :=
  if hi < lo then some lo
  else do
    let n ← addHigh ((r + r / 65536 % 65536) % 4294967296)
    let w ← ckInt (hi - lo)
    let w ← ckInt (w + 1)
    return ((n % 134217728 : Nat) : Int) % w + lo

/-- The random tree of `gp_CreateRandomGraph`, graphUtils.c 1084-1089: the vertices `v`.. still to be connected are
`k` many. -/
def tree (rnd : Nat → Nat) : Nat → Nat → Nat → Graph → Option (Graph × Res)
  | 0, _, _, g => some (g, .ok)
  | k + 1, i, v, g => do
    let u ← number (rnd i) 1 ((v : Int) - 1)
    let (g, r) ← g.addEdge u 0 v 0
    if r ≠ .ok then some (g, .notok) else tree rnd k (i + 1) (v + 1) g

/-- One attempt at an additional edge, graphUtils.c 1102-1114: the code, if the function returns. `true` if an edge was
added. -/
def attempt (g : Graph) (u v : Int) : Option (Graph × Bool × Option Res) := do
  let b ← g.isNeighbor u.toNat v.toNat
  if b then return (g, false, none)
  else do
    let (g, r) ← g.addEdge u 0 v 0
    if r ≠ .ok then return (g, true, some .notok) else return (g, true, none)

/-- The additional edges, graphUtils.c 1100-1115. -/
def extra (rnd : Nat → Nat) (M : Int) : Nat → Nat → Int → Graph → Option (Graph × Option Res)
  | 0, _, m, g => if m < M then some (g, none) else some (g, some .ok)
  | fuel + 1, i, m, g =>
    if m < M then do
      let u ← number (rnd i) 1 ((g.N : Int) - 1)
      let v ← number (rnd (i + 1)) (u + 1) g.N
      let (g, added, r) ← attempt g u v
      match r with
      | some r => some (g, some r)
      | none => extra rnd M fuel (i + 2) (if added then m + 1 else m) g
    else some (g, some .ok)

/-- The number of edges, graphUtils.c 1095-1098. -/
def edgeCount (r : Nat) (N arcCap : Nat) : Option Int := do
  let low ← ckInt (7 * N)
  let M ← number r (low / 8) ((arcCap / 2 : Nat) : Int)
  let p ← ckInt ((N : Int) * ((N : Int) - 1))
  return if M > p / 2 then p / 2 else M

/-- `gp_CreateRandomGraph` after its first loop, graphUtils.c 1095-1117. -/
def addExtra (rnd : Nat → Nat) (fuel : Nat) (g : Graph) : Option (Graph × Option Res) := do
  let M ← edgeCount (rnd (g.N - 1)) g.N g.arcCap
  extra rnd M fuel g.N ((g.N : Int) - 1) g

/-- `gp_CreateRandomGraph`, graphUtils.c 1073-1118. -/
def createRandomGraph (rnd : Nat → Nat) (fuel : Nat) (g : Graph) : Option (Graph × Option Res) := do
  let (g, r) ← tree rnd (g.N - 1) 0 2 g
  if r ≠ .ok then some (g, some .notok) else addExtra rnd fuel g

/-- `gp_SetEdgeVisited` (graphStructures.h 108). -/
def setEdgeVisited (g : Graph) (e : Nat) : Option Graph := do
  let r ← g.rdE e
  g.wrE e { r with flags := r.flags ||| 1 }

/-- `gp_ClearEdgeVisited` (graphStructures.h 107). -/
def clearEdgeVisited (g : Graph) (e : Nat) : Option Graph := do
  let r ← g.rdE e
  g.wrE e { r with flags := r.flags - (r.flags &&& 1) }

/-- `gp_ClearEdgeType` (graphStructures.h 129). -/
def clearEdgeType (g : Graph) (e : Nat) : Option Graph := do
  let r ← g.rdE e
  g.wrE e { r with flags := r.flags - (r.flags &&& 14) }

/-- The removal part of `gp_MoveArcToLast` (graphStructures.h 682-692). -/
def unlink (g : Graph) (v arc : Nat) (isFirst : Bool) : Option Graph := do
  let next ← g.getAdj arc false
  let prev ← g.getAdj arc true
  if isFirst then do (← g.setAdj next true 0).setArc v false next
  else do (← g.setAdj prev false next).setAdj next true prev

/-- `gp_MoveArcToLast` (graphStructures.h 677-699). -/
def moveArcToLast (g : Graph) (v arc : Nat) : Option Graph := do
  let last ← g.getArc v true
  if arc = last then return g
  else do
    let first ← g.getArc v false
    let g ← unlink g v arc (decide (arc = first))
    let g ← g.setAdj arc true last
    let g ← g.setAdj last false arc
    let g ← g.setArc v true arc
    g.setAdj arc false 0

/-- `_getUnprocessedChild`, graphUtils.c 1153-1192; NIL is 0. -/
def unprocessedChild (s : PGraph) (parent : Nat) : Option (PGraph × Nat) := do
  let e ← s.g.getArc parent false
  let child ← s.g.getNbr e
  let t ← s.g.getType e
  let r ← s.g.rdE e
  if t = 0 then return (s, 0)
  else if r.flags &&& 1 ≠ 0 then return (s, 0)
  else do
    let g ← setEdgeVisited s.g e
    let g ← setEdgeVisited g (twin e)
    let g ← moveArcToLast g parent e
    let g ← moveArcToLast g child (twin e)
    let s ← (s.setG g).setParent child parent
    return (s, child)

/-- A tree edge with its marks, graphUtils.c 1242-1251. -/
def treeEdge (g : Graph) (u : Int) (v : Nat) : Option (Graph × Res) := do
  let (g, r) ← g.addEdge u 0 v 0
  if r ≠ .ok then some (g, .notok)
  else do
    let arc ← g.neighborEdge u.toNat v
    let g ← g.setTypes arc 4 4
    let g ← clearEdgeVisited g arc
    let g ← clearEdgeVisited g (twin arc)
    return (g, .ok)

/-- The random tree of `gp_CreateRandomGraphEx` with its marks, graphUtils.c 1238-1252. -/
def markedTree (rnd : Nat → Nat) : Nat → Nat → Nat → Graph → Option (Graph × Res)
  | 0, _, _, g => some (g, .ok)
  | k + 1, i, v, g => do
    let u ← number (rnd i) 1 ((v : Int) - 1)
    let (g, r) ← treeEdge g u v
    if r ≠ .ok then some (g, .notok) else markedTree rnd k (i + 1) (v + 1) g

/-- `gp_AddEdge(theGraph, u, 1, v, 1) != OK` in the loop, with the test before it; `true` if the function has to return
NOTOK. -/
def addLast (s : PGraph) (cond : Bool) (u v : Nat) : Option (PGraph × Bool) :=
  if cond then do
    let (g, r) ← s.g.addEdge u 1 v 1
    return (s.setG g, decide (r ≠ .ok))
  else some (s, false)

/-- The climb to an ancestor with an unprocessed child, graphUtils.c 1282-1291. Result: v, p, c and whether to return
NOTOK. -/
def climb (root last : Nat) : Nat → PGraph → Nat → Nat → Nat → Option (PGraph × Nat × Nat × Nat × Bool)
  | 0, _, _, _, _ => none
  | fuel + 1, s, v, p, c =>
    if p = 0 then some (s, v, p, c, false)
    else do
      let (s, c) ← unprocessedChild s p
      if c ≠ 0 then some (s, v, p, c, false)
      else do
        let v := p
        let p ← s.getParent v
        let (s, fail) ← addLast s (decide (p ≠ 0 ∧ p ≠ root)) last p
        if fail then some (s, v, p, c, true) else climb root last fuel s v p c

/-- After the climb, graphUtils.c 1293-1320. Result: v, last and whether to return NOTOK. -/
def afterClimb (root : Nat) (s : PGraph) (v p c last : Nat) : Option (PGraph × Nat × Nat × Bool) :=
  if p = 0 then some (s, v, last, false)
  else if p = root then do
    let (s, fail) ← addLast s true v c
    if fail then some (s, v, last, true)
    else do
      let (s, fail) ← addLast s (decide (v ≠ last)) last c
      if fail then some (s, v, last, true) else some (s, c, last, false)
  else do
    let (s, fail) ← addLast s true last c
    if fail then some (s, v, last, true)
    else do
      let (s, fail) ← addLast s true root c
      if fail then some (s, v, last, true) else some (s, c, c, false)

/-- One round of the loop that makes a maximal planar graph, graphUtils.c 1263-1321. -/
def planarBody (root : Nat) (s : PGraph) (v last : Nat) : Option (PGraph × Nat × Nat × Bool) := do
  let (s, c) ← unprocessedChild s v
  if c ≠ 0 then do
    let (s, fail) ← addLast s (decide (last ≠ v)) last c
    if fail then some (s, v, last, true)
    else do
      let (s, fail) ← addLast s true root c
      if fail then some (s, v, last, true) else some (s, c, c, false)
  else do
    let p ← s.getParent v
    let (s, v, p, c, fail) ← climb root last (s.g.N + 1) s v p c
    if fail then some (s, v, last, true) else afterClimb root s v p c last

/-- The loop, graphUtils.c 1261-1322. Each round takes a new tree edge or ends, so `N + 1` rounds are given. The code
is `some .notok` if the function returns. -/
def planarLoop (root : Nat) (M : Int) : Nat → PGraph → Nat → Nat → Option (PGraph × Bool)
  | 0, _, _, _ => none
  | fuel + 1, s, v, last =>
    if v ≠ root ∧ (s.g.M : Int) < M then do
      let (s, v, last, fail) ← planarBody root s v last
      if fail then some (s, true) else planarLoop root M fuel s v last
    else some (s, false)

/-- One round of the loop for further edges, graphUtils.c 1328-1333. -/
def attemptEx (g : Graph) (u v : Int) : Option (Graph × Option Res) := do
  let b ← if u ≠ v then g.isNeighbor u.toNat v.toNat else some true
  if b then return (g, none)
  else do
    let (g, r) ← g.addEdge u 0 v 0
    if r ≠ .ok then return (g, some .notok) else return (g, none)

/-- Further edges, graphUtils.c 1326-1334. -/
def extraEx (rnd : Nat → Nat) (numEdges : Int) : Nat → Nat → Graph → Option (Graph × Option Res)
  | 0, _, g => if (g.M : Int) < numEdges then some (g, none) else some (g, some .ok)
  | fuel + 1, i, g =>
    if (g.M : Int) < numEdges then do
      let u ← number (rnd i) 1 g.N
      let v ← number (rnd (i + 1)) 1 g.N
      let (g, r) ← attemptEx g u v
      match r with
      | some r => some (g, some r)
      | none => extraEx rnd numEdges fuel (i + 2) g
    else some (g, some .ok)

/-- The clean-up, graphUtils.c 1338-1348. -/
def cleanUp (s : PGraph) : Option PGraph := do
  let g ← (List.range s.g.inUse).foldlM (fun g e => do clearEdgeVisited (← clearEdgeType g e) e) s.g
  (List.range g.N).foldlM (fun s i => s.setParent (i + 1) 0) (s.setG g)

/-- The end of the function, graphUtils.c 1324-1350. -/
def finishEx (rnd : Nat → Nat) (fuel : Nat) (numEdges : Int) (s : PGraph) : Option (PGraph × Option Res) := do
  let (g, r) ← extraEx rnd numEdges fuel (s.g.N - 1) s.g
  match r with
  | some .ok => return (← cleanUp (s.setG g), some .ok)
  | _ => return (s.setG g, r)

/-- The maximal planar graph, graphUtils.c 1256-1322; `true` if the function has to return NOTOK. -/
def planarPhase (numEdges : Int) (s : PGraph) : Option (PGraph × Bool) := do
  let b ← ckInt (3 * s.g.N)
  let (s, v) ← unprocessedChild s 1
  planarLoop 1 (min numEdges (b - 6)) (s.g.N + 1) s v v

/-- `gp_CreateRandomGraphEx` after its first loop, graphUtils.c 1256-1350. -/
def afterTree (rnd : Nat → Nat) (fuel : Nat) (numEdges : Int) (s : PGraph) : Option (PGraph × Option Res) := do
  let (s, fail) ← planarPhase numEdges s
  if fail then some (s, some .notok) else finishEx rnd fuel numEdges s

/-- `gp_CreateRandomGraphEx` for a request that fits the capacity, graphUtils.c 1238-1350. -/
def fromTree (rnd : Nat → Nat) (fuel : Nat) (numEdges : Int) (s : PGraph) : Option (PGraph × Option Res) := do
  let (g, r) ← markedTree rnd (s.g.N - 1) 0 2 s.g
  if r ≠ .ok then some (s.setG g, some .notok) else afterTree rnd fuel numEdges (s.setG g)

/-- `gp_CreateRandomGraphEx`, graphUtils.c 1227-1351. -/
def createRandomGraphEx (rnd : Nat → Nat) (fuel : Nat) (numEdges : Int) (s : PGraph) : Option (PGraph × Option Res) :=
  fromTree rnd fuel (min numEdges ((s.g.arcCap / 2 : Nat) : Int)) s

end Random
end Verif
