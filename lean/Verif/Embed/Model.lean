import Verif.Embed.Init
import Verif.Graph.Vertex

/-
Model of the planarity embedder gp_Embed after its start (planarityRelated/graphEmbed.c 79-1304): walking up, walking
down, embedding an edge, merging and inverting biconnected components, orienting and joining them at the end.

`none` is undefined behaviour or a loop that does not stop. Logging is not modelled. The functions called through the
function table are the default ones (no extension attached). _HandleBlockedBicomp never returns OK (graphEmbed.c
1022-1038: NONEMBEDDABLE or NOTOK); the isolation of an obstruction it performs is in Isolate.lean, so here the walk down
only reports that it was blocked.
-/
namespace Verif
namespace EGraph

/-- `gp_GetExtFaceVertex` (graphStructures.h 346). -/
def getExt (s : EGraph) (v : Nat) (b : Bool) : Option Nat := if v < s.p.g.vSize then some (s.ext v b) else none

/-- `gp_GetDFSChildFromRoot` (graphStructures.h 268), as an index. -/
def childOf (s : EGraph) (R : Nat) : Option Nat := if s.p.g.N ≤ R then some (R - s.p.g.N) else none

/-- `gp_GetPrimaryVertexFromRoot` (graphStructures.h 269). -/
def primaryOf (s : EGraph) (R : Nat) : Option Nat := do s.p.getParent (← s.childOf R)

/-- Take an arc out of the circular forward arc list of `v`, graphEmbed.c 395-403. -/
def takeFwd (p : PGraph) (v f : Nat) : Option PGraph := do
  let r ← p.rdVI v
  let n ← p.g.getAdj f false
  let p ← if r.fwdArcList = f then p.wrVI v { r with fwdArcList := if n = f then 0 else n } else some p
  let q ← p.g.getAdj f true
  let n ← p.g.getAdj f false
  let g ← p.g.setAdj q false n
  let n ← g.getAdj f false
  let q ← g.getAdj f true
  let g ← g.setAdj n true q
  return p.setG g

/-- Put an arc at the end `b` of the list of `v`, which is not empty, graphEmbed.c 408-411 and 415-418. -/
def putArc (g : Graph) (v : Nat) (b : Bool) (e : Nat) : Option Graph := do
  let g ← g.setAdj e (!b) 0
  let a ← g.getArc v b
  let g ← g.setAdj e b a
  let a ← g.getArc v b
  let g ← g.setAdj a (!b) e
  g.setArc v b e

/-- `_EmbedBackEdgeToDescendant`, graphEmbed.c 377-426. -/
def embedBackEdge (s : EGraph) (rootSide : Bool) (root W : Nat) (wPrev : Bool) : Option EGraph := do
  let f := (← s.p.rdVI W).pertinentEdge
  let v ← s.primaryOf root
  let p ← takeFwd s.p v f
  let g ← putArc p.g root rootSide f
  let g ← putArc g W wPrev (twin f)
  let g ← g.setNbr (twin f) root
  let s := s.setP (p.setG g)
  let s ← s.setExt root rootSide W
  s.setExt W wPrev root

/-- Exchange the links of the arcs of a list, graphEmbed.c 442-450. -/
def invertArcs : Nat → Graph → Nat → Option Graph
  | 0, g, e => if e = 0 then some g else none
  | fuel + 1, g, e =>
    if e = 0 then some g
    else do
      let t ← g.getAdj e false
      let q ← g.getAdj e true
      let g ← g.setAdj e false q
      let g ← g.setAdj e true t
      invertArcs fuel g t

/-- `_InvertVertex`, graphEmbed.c 435-461. -/
def invertVertex (s : EGraph) (W : Nat) : Option EGraph := do
  let a ← s.p.g.getArc W false
  let g ← invertArcs s.p.g.eSize s.p.g a
  let t ← g.getArc W false
  let l ← g.getArc W true
  let g ← g.setArc W false l
  let g ← g.setArc W true t
  let s := s.setG g
  let t ← s.getExt W false
  let u ← s.getExt W true
  let s ← s.setExt W false u
  s.setExt W true t

/-- The list union of `_MergeVertex` if W has arcs, graphEmbed.c 513-525. -/
def unionLists (g : Graph) (W : Nat) (wPrev : Bool) (ew er ex : Nat) : Option Graph := do
  let g ← g.setAdj ew (!wPrev) er
  let g ← g.setAdj er wPrev ew
  let g ← g.setArc W wPrev ex
  g.setAdj ex (!wPrev) 0

/-- The list of R becomes the list of W, which has no arcs, graphEmbed.c 528-537. -/
def moveList (g : Graph) (W : Nat) (wPrev : Bool) (er ex : Nat) : Option Graph := do
  let g ← g.setArc W (!wPrev) er
  let g ← g.setAdj er wPrev 0
  let g ← g.setArc W wPrev ex
  g.setAdj ex (!wPrev) 0

/-- `_MergeVertex`, graphEmbed.c 488-541. The loop 496-503 is that of `retargetLoop`. -/
def mergeVertex (g : Graph) (W : Nat) (wPrev : Bool) (R : Nat) : Option Graph := do
  let a ← g.getArc R false
  let g ← Graph.retargetLoop g.eSize g W a
  let ew ← g.getArc W wPrev
  let er ← g.getArc R (!wPrev)
  let ex ← g.getArc R wPrev
  let g ← if ew ≠ 0 then unionLists g W wPrev ew er ex else moveList g W wPrev er ex
  g.wrV R {}

/-- `gp_XorEdgeFlagInverted` (graphStructures.h 138). -/
def xorInverted (g : Graph) (e : Nat) : Option Graph := do
  let r ← g.rdE e
  g.wrE e { r with flags := r.flags ^^^ 16 }

/-- `gp_ClearEdgeFlagInverted` (graphStructures.h 137). -/
def clearInverted (g : Graph) (e : Nat) : Option Graph := do
  let r ← g.rdE e
  g.wrE e { r with flags := r.flags &&& (2 ^ 32 - 1 - 16) }

/-- `gp_GetEdgeFlagInverted` (graphStructures.h 135): 0 or 16. -/
def getInverted (g : Graph) (e : Nat) : Option Nat := do return (← g.rdE e).flags &&& 16

/-- The search for the tree edge in the root's list, graphEmbed.c 598-615. -/
def flipChild : Nat → Graph → Nat → Option Graph
  | 0, g, e => if e = 0 then some g else none
  | fuel + 1, g, e =>
    if e = 0 then some g
    else do
      let t ← g.getType e
      if t = 14 then xorInverted g e
      else flipChild fuel g (← g.getAdj e false)

/-- Flip the component of R if it is entered and left on the same side, graphEmbed.c 591-616. -/
def flipRoot (s : EGraph) (R : Nat) : Option EGraph := do
  let a ← s.p.g.getArc R false
  let b ← s.p.g.getArc R true
  let s ← if a ≠ b then s.invertVertex R else some s
  let a ← s.p.g.getArc R false
  let g ← flipChild s.p.g.eSize s.p.g a
  return s.setG g

/-- `gp_DeleteVertexPertinentRoot` (graphStructures.h 434-436). -/
def deleteRoot (s : EGraph) (Z R : Nat) : Option EGraph := do
  let r ← s.p.rdVI Z
  let c ← s.childOf R
  let (roots, h) ← LC.delete s.roots r.pertinentRoots c
  let p ← s.p.wrVI Z { r with pertinentRoots := h }
  return { s with p := p, roots := roots }

/-- `gp_GetVertexNextDFSChild` (graphStructures.h 469). -/
def nextChild (s : EGraph) (v c : Nat) : Option Nat := do
  LC.getNext s.kids (← s.p.rdVI v).sortedDFSChildList c

/-- Advance the future pertinent child past the merged one, graphEmbed.c 624-628. -/
def passChild (s : EGraph) (Z R : Nat) : Option EGraph := do
  let r ← s.p.rdVI Z
  let c ← s.childOf R
  if c = r.futurePertinentChild then do
    let n ← s.nextChild Z r.futurePertinentChild
    let p ← s.p.wrVI Z { r with futurePertinentChild := n }
    return s.setP p
  else some s

/-- The external face links at the cut vertex, graphEmbed.c 573-584. -/
def linkExt (s : EGraph) (R : Nat) (rOut : Bool) (Z : Nat) (zPrev : Bool) : Option EGraph := do
  let x ← s.getExt R (!rOut)
  let s ← s.setExt Z zPrev x
  let a ← s.getExt x false
  let b ← s.getExt x true
  if a = b then s.setExt x rOut Z else s.setExt x (if a = R then false else true) Z

/-- One round of `_MergeBicomps`, graphEmbed.c 573-632. -/
def mergeOne (s : EGraph) (R : Nat) (rOut : Bool) (Z : Nat) (zPrev : Bool) : Option EGraph := do
  let s ← s.linkExt R rOut Z zPrev
  let s ← if zPrev = rOut then s.flipRoot R else some s
  let s ← s.deleteRoot Z R
  let s ← s.passChild Z R
  let g ← mergeVertex s.p.g Z zPrev R
  return s.setG g

/-- `_MergeBicomps`, graphEmbed.c 558-635. The stack holds Z, ZPrevLink, R, Rout per level, Rout on top. -/
def mergeBicomps : Nat → EGraph → Option EGraph
  | 0, s => if s.p.g.stack = [] then some s else none
  | fuel + 1, s =>
    match s.p.g.stack with
    | [] => some s
    | rOut :: R :: zPrev :: Z :: rest => do
      let ro ← Graph.linkOf rOut
      let zp ← Graph.linkOf zPrev
      let s ← (s.setG { s.p.g with stack := rest }).mergeOne R ro Z zp
      mergeBicomps fuel s
    | _ => none

/-- `gp_UpdateVertexFuturePertinentChild` (graphStructures.h 452-464). -/
def updateFuture (s : EGraph) (w v : Nat) : Nat → Option EGraph
  | 0 => none
  | fuel + 1 => do
    let r ← s.p.rdVI w
    let c := r.futurePertinentChild
    if c = 0 then return s
    else do
      let low ← s.p.getLowpoint c
      let a ← s.p.g.getArc (c + s.p.g.N) false
      if v ≤ low ∨ a = 0 then do
        let n ← s.nextChild w c
        let p ← s.p.wrVI w { r with futurePertinentChild := n }
        updateFuture (s.setP p) w v fuel
      else return s

/-- `PERTINENT` (graphStructures.h 724-726). -/
def pertinent (s : EGraph) (w : Nat) : Option Bool := do
  let r ← s.p.rdVI w
  return r.pertinentEdge ≠ 0 ∨ r.pertinentRoots ≠ 0

/-- `FUTUREPERTINENT` (graphStructures.h 763-766). -/
def futurePertinent (s : EGraph) (w v : Nat) : Option Bool := do
  let r ← s.p.rdVI w
  if r.leastAncestor < v then return true
  else if r.futurePertinentChild ≠ 0 then return (← s.p.getLowpoint r.futurePertinentChild) < v
  else return false

/-- `gp_GetVertexVisitedInfo(x) == v`. -/
def seen (s : EGraph) (x v : Nat) : Option Bool := do return (← s.p.rdVI x).visitedInfo = v

/-- `gp_SetVertexVisitedInfo`. -/
def see (s : EGraph) (x v : Nat) : Option EGraph := do
  let r ← s.p.rdVI x
  let p ← s.p.wrVI x { r with visitedInfo := v }
  return s.setP p

/-- Where `_WalkUp` goes next: stop, on to the next vertices, or up from a root. -/
inductive Go
  | stop
  | on (zig zag : Nat)
  | up (R : Nat)

/-- The tests of one round of `_WalkUp`, graphEmbed.c 688-730. -/
def upTest (s : EGraph) (v zig zag : Nat) (zigPrev zagPrev : Bool) : Option Go := do
  let nextZig ← s.getExt zig (!zigPrev)
  if s.p.g.N < nextZig then do
    if ← s.seen zig v then return .stop
    let a ← s.getExt nextZig false
    let nextZag ← s.getExt nextZig (if a = zig then true else false)
    if ← s.seen nextZag v then return .stop
    return .up nextZig
  else do
    let nextZag ← s.getExt zag (!zagPrev)
    if s.p.g.N < nextZag then do
      if ← s.seen zag v then return .stop
      let a ← s.getExt nextZag false
      let nextZig ← s.getExt nextZag (if a = zag then true else false)
      if ← s.seen nextZig v then return .stop
      return .up nextZag
    else do
      if ← s.seen zig v then return .stop
      if ← s.seen zag v then return .stop
      return .on nextZig nextZag

/-- `gp_AppendVertexPertinentRoot` or `gp_PrependVertexPertinentRoot`, graphEmbed.c 764-767. -/
def addRoot (s : EGraph) (v z R : Nat) : Option EGraph := do
  let c ← s.childOf R
  let low ← s.p.getLowpoint c
  let r ← s.p.rdVI z
  let (roots, h) ← if low < v then LC.append s.roots r.pertinentRoots c else LC.prepend s.roots r.pertinentRoots c
  let p ← s.p.wrVI z { r with pertinentRoots := h }
  return { s with p := p, roots := roots }

/-- The loop of `_WalkUp`, graphEmbed.c 685-771. -/
def upLoop (v : Nat) : Nat → EGraph → (zig zag : Nat) → (zigPrev zagPrev : Bool) → Option EGraph
  | 0, _, _, _, _, _ => none
  | fuel + 1, s, zig, zag, zigPrev, zagPrev =>
    if zig = v then some s
    else do
      match ← s.upTest v zig zag zigPrev zagPrev with
      | .stop => return s
      | .on nextZig nextZag => do
        let s ← s.see zig v
        let s ← s.see zag v
        let a ← s.getExt nextZig false
        let b ← s.getExt nextZag false
        upLoop v fuel s nextZig nextZag (if a = zig then false else true) (if b = zag then false else true)
      | .up R => do
        let s ← s.see zig v
        let s ← s.see zag v
        let z ← s.primaryOf R
        let s ← s.addRoot v z R
        upLoop v fuel s z z true false

/-- `_WalkUp`, graphEmbed.c 673-772. -/
def walkUp (s : EGraph) (v e : Nat) : Option EGraph := do
  let W ← s.p.g.getNbr e
  let r ← s.p.rdVI W
  let p ← s.p.wrVI W { r with pertinentEdge := e }
  upLoop v (s.p.g.N + 2) (s.setP p) W W true false

/-- Embed the edge of W, if it is pending, graphEmbed.c 863-876. -/
def downEmbed (s : EGraph) (side : Bool) (root W : Nat) (wPrev : Bool) : Option EGraph := do
  let r ← s.p.rdVI W
  if r.pertinentEdge ≠ 0 then do
    let s ← mergeBicomps (s.p.g.stack.length + 1) s
    let s ← s.embedBackEdge side root W wPrev
    let r ← s.p.rdVI W
    let p ← s.p.wrVI W { r with pertinentEdge := 0 }
    return s.setP p
  else some s

/-- The choice among the two vertices next to a root, graphEmbed.c 898-922: the chosen side, or nothing if both are
blocked. -/
def choose (s : EGraph) (v X Y : Nat) : Option (Option Bool) := do
  let px ← s.pertinent X
  let fx ← s.futurePertinent X v
  let py ← s.pertinent Y
  let fy ← s.futurePertinent Y v
  if px ∧ ¬ fx then return some false
  else if py ∧ ¬ fy then return some true
  else if px then return some false
  else if py then return some true
  else return none

/-- C's 0 or 1 of a link. -/
def bit (b : Bool) : Nat := if b then 1 else 0

/-- The situation in the walk down: on at a vertex, the end of the traversal, or blocked. -/
inductive Down
  | at (W : Nat) (wPrev : Bool)
  | done
  | blocked

/-- Descend to the first pertinent child component, graphEmbed.c 880-937. -/
def descend (s : EGraph) (v W : Nat) (wPrev : Bool) (c : Nat) : Option (EGraph × Down) := do
  let g ← s.p.g.push2 W (bit wPrev)
  let s := s.setG g
  let R := c + s.p.g.N
  let X ← s.getExt R false
  let a ← s.getExt X true
  let Y ← s.getExt R true
  let b ← s.getExt Y false
  let s ← s.updateFuture X v (s.p.g.N + 2)
  let s ← s.updateFuture Y v (s.p.g.N + 2)
  match ← s.choose v X Y with
  | some false => do
    let g ← s.p.g.push2 R (bit false)
    return (s.setG g, .at X (if a = R then true else false))
  | some true => do
    let g ← s.p.g.push2 R (bit true)
    return (s.setG g, .at Y (if b = R then false else true))
  | none => do
    let g ← s.p.g.push2 R 0
    return (s.setG g, .blocked)

/-- End the traversal at a stopping vertex, graphEmbed.c 952-964. -/
def stopAt (s : EGraph) (side : Bool) (root W : Nat) (wPrev : Bool) : Option EGraph := do
  let a ← s.getExt root (!side)
  if a = W then do
    let Y ← s.getExt W wPrev
    let b ← s.getExt Y false
    let s ← s.setExt root side Y
    s.setExt Y (if b = W then true else false) root
  else do
    let s ← s.setExt root side W
    s.setExt W wPrev root

/-- A vertex without pertinent child components, graphEmbed.c 939-978, with `_HandleInactiveVertex` (1134-1141). -/
def passOver (s : EGraph) (outer : Bool) (v : Nat) (side : Bool) (root W : Nat) (wPrev : Bool) :
    Option (EGraph × Down) := do
  let s ← s.updateFuture W v (s.p.g.N + 2)
  let f ← s.futurePertinent W v
  if f ∨ outer then do
    let s ← s.stopAt side root W wPrev
    return (s, .done)
  else do
    let X ← s.getExt W (!wPrev)
    let a ← s.getExt X false
    return (s, .at X (if a = W then false else true))

/-- One round of the walk down, graphEmbed.c 862-979. -/
def downRound (s : EGraph) (outer : Bool) (v : Nat) (side : Bool) (root W : Nat) (wPrev : Bool) :
    Option (EGraph × Down) := do
  let s ← s.downEmbed side root W wPrev
  let c := (← s.p.rdVI W).pertinentRoots
  if c ≠ 0 then s.descend v W wPrev c else s.passOver outer v side root W wPrev

/-- `while (W != RootVertex)`, graphEmbed.c 860-980. The result tells whether the walk was not blocked. -/
def downLoop (outer : Bool) (v : Nat) (side : Bool) (root : Nat) : Nat → EGraph → Nat → Bool → Option (EGraph × Bool)
  | 0, _, _, _ => none
  | fuel + 1, s, W, wPrev =>
    if W = root then some (s, true)
    else do
      let (s, d) ← s.downRound outer v side root W wPrev
      match d with
      | .at W wPrev => downLoop outer v side root fuel s W wPrev
      | .done => return (s, true)
      | .blocked => return (s, false)

/-- One traversal, graphEmbed.c 850-980. -/
def downSide (s : EGraph) (outer : Bool) (v : Nat) (side : Bool) (root : Nat) : Option (EGraph × Bool) := do
  let W ← s.getExt root side
  let a ← s.getExt W true
  downLoop outer v side root (3 * s.p.g.N + 3) s W (if a = root then true else false)

/-- The test at the end of `_WalkDown`, graphEmbed.c 984-996: whether all forward arcs into the subtree are embedded. -/
def downEnd (s : EGraph) (v c : Nat) : Option Bool := do
  let e := (← s.p.rdVI v).fwdArcList
  if e ≠ 0 then do
    let w ← s.p.g.getNbr e
    if c < w then do
      let n ← s.nextChild v c
      return !(n = 0 ∨ w < n)
    else return true
  else return true

/-- The arguments `_HandleBlockedBicomp` is called with (graphEmbed.c 926 and 993), kept for the isolation of an obstruction:
nothing else is done before it, as the loops around the walk down end at once. -/
def hand (s : EGraph) (v root : Nat) : EGraph := { s with ic := { v := v, r := root } }

/-- `_WalkDown`, graphEmbed.c 842-997. -/
def walkDown (s : EGraph) (outer : Bool) (v root : Nat) : Option (EGraph × Bool) := do
  let c ← s.childOf root
  let (s, r) ← (s.setG s.p.g.clearStack).downSide outer v false root
  if !r then return (s.hand v root, false)
  else do
    let (s, r) ← s.downSide outer v true root
    if !r then return (s.hand v root, false)
    else do
      let ok ← s.downEnd v c
      return (if ok then s else s.hand v root, ok)

/-- The walks up of a step, graphEmbed.c 102-110. -/
def walkUps (v : Nat) : Nat → EGraph → Nat → Option EGraph
  | 0, s, e => if e = 0 then some s else none
  | fuel + 1, s, e =>
    if e = 0 then some s
    else do
      let s ← s.walkUp v e
      let n ← s.p.g.getAdj e false
      let r ← s.p.rdVI v
      walkUps v fuel s (if n = r.fwdArcList then 0 else n)

/-- The walks down of a step, graphEmbed.c 115-129. -/
def walkDowns (outer : Bool) (v : Nat) : Nat → EGraph → Nat → Option (EGraph × Bool)
  | 0, s, c => if c = 0 then some (s, true) else none
  | fuel + 1, s, c =>
    if c = 0 then some (s, true)
    else do
      let r ← s.p.rdVI c
      let (s, ok) ← if r.pertinentRoots ≠ 0 then s.walkDown outer v (c + s.p.g.N) else some (s, true)
      if !ok then return (s, false)
      else do
        let n ← s.nextChild v c
        walkDowns outer v fuel s n

/-- One step of the main loop, graphEmbed.c 97-134. -/
def embedStep (s : EGraph) (outer : Bool) (v : Nat) : Option (EGraph × Bool) := do
  let e := (← s.p.rdVI v).fwdArcList
  let s ← walkUps v s.p.g.eSize s e
  let r ← s.p.rdVI v
  let p ← s.p.wrVI v { r with pertinentRoots := 0 }
  let s := s.setP p
  walkDowns outer v (1 + s.p.g.N) s r.sortedDFSChildList

/-- The main loop, graphEmbed.c 95-135, from vertex `v` down. -/
def embedLoop (outer : Bool) : Nat → EGraph → Option (EGraph × Bool)
  | 0, s => some (s, true)
  | v + 1, s => do
    let (s, ok) ← s.embedStep outer (v + 1)
    if ok then embedLoop outer v s else return (s, false)

/-- Push the tree children of W, graphEmbed.c 1262-1277 with PreserveSigns = 0. -/
def pushKids (flag : Nat) : Nat → Graph → Nat → Option Graph
  | 0, g, e => if e = 0 then some g else none
  | fuel + 1, g, e =>
    if e = 0 then some g
    else do
      let t ← g.getType e
      let g ← if t = 14 then do
          let w ← g.getNbr e
          let i ← getInverted g e
          let g ← g.push2 w (flag ^^^ i)
          clearInverted g e
        else some g
      pushKids flag fuel g (← g.getAdj e false)

/-- The loop of `_OrientVerticesInBicomp`, graphEmbed.c 1254-1278, for an empty stack below. -/
def orientLoop : Nat → EGraph → Option EGraph
  | 0, s => if s.p.g.stack = [] then some s else none
  | fuel + 1, s =>
    match s.p.g.stack with
    | [] => some s
    | [_] => none
    | flag :: W :: rest => do
      let s := s.setG { s.p.g with stack := rest }
      let s ← if flag ≠ 0 then s.invertVertex W else some s
      let a ← s.p.g.getArc W false
      let g ← pushKids flag s.p.g.eSize s.p.g a
      orientLoop fuel (s.setG g)

/-- `_OrientVerticesInBicomp`, graphEmbed.c 1247-1280, if the root is in use (1205-1210). -/
def orientBicomp (s : EGraph) (R : Nat) : Option EGraph := do
  let a ← s.p.g.getArc R false
  if a ≠ 0 then do
    let g ← s.p.g.push2 R 0
    orientLoop (s.p.g.vSize + 1) (s.setG g)
  else some s

/-- `_OrientVerticesInEmbedding`, graphEmbed.c 1196-1213. -/
def orientAll (s : EGraph) : Option EGraph :=
  (List.range s.p.g.N).foldlM (fun s i => s.orientBicomp (s.p.g.N + 1 + i)) (s.setG s.p.g.clearStack)

/-- One round of `_JoinBicomps`, graphEmbed.c 1297-1300. -/
def joinOne (s : EGraph) (R : Nat) : Option EGraph := do
  let a ← s.p.g.getArc R false
  if a ≠ 0 then do
    let z ← s.primaryOf R
    let g ← mergeVertex s.p.g z false R
    return s.setG g
  else some s

/-- `_JoinBicomps`, graphEmbed.c 1291-1304. -/
def joinBicomps (s : EGraph) : Option EGraph :=
  (List.range s.p.g.N).foldlM (fun s i => s.joinOne (s.p.g.N + 1 + i)) s

/-- What `gp_Embed` did: returned OK, returned NOTOK before embedding, or was blocked and handed the graph to the
isolation of an obstruction. -/
inductive Embedding
  | ok | notok | blocked
  deriving DecidableEq, Repr

/-- `gp_Embed`, graphEmbed.c 79-139, with `_EmbedPostprocess` (1168-1183). `outer` is the flag
EMBEDFLAGS_OUTERPLANAR. -/
def embed (s : EGraph) (outer : Bool) : Option (EGraph × Embedding) := do
  let (s, r) ← s.embeddingInitialize
  if r ≠ .ok then return (s, .notok)
  else do
    let (s, ok) ← embedLoop outer s.p.g.N s
    if ok then do
      let s ← s.orientAll
      let s ← s.joinBicomps
      return (s, .ok)
    else return (s, .blocked)

end EGraph
end Verif
