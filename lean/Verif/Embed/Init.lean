import Verif.DFS.Model
import Verif.Util.ListColl

/-
Model of the start of gp_Embed: _EmbeddingInitialize (planarityRelated/graphEmbed.c 159-372).

`none` is undefined behaviour or a loop that does not stop. Logging and profiling are not modelled.
-/
namespace Verif

/-- `isolatorContext`, graphStructures.h 505-510, as `_InitIsolatorContext` leaves it (graphUtils.c 532-539). -/
structure IC where
  minorType : Nat := 0
  v : Nat := 0
  r : Nat := 0
  x : Nat := 0
  y : Nat := 0
  w : Nat := 0
  px : Nat := 0
  py : Nat := 0
  z : Nat := 0
  ux : Nat := 0
  dx : Nat := 0
  uy : Nat := 0
  dy : Nat := 0
  dw : Nat := 0
  uz : Nat := 0
  dz : Nat := 0
  deriving DecidableEq, Repr

/-- `baseGraphStructure`, graphStructures.h 555-574, with the parts the embedder uses: the list collections
(1 + N nodes each, graphUtils.c 223-224) and the external face array (as long as `V`, graphUtils.c 226). -/
structure EGraph where
  p : PGraph
  kids : LC.Coll
  roots : LC.Coll
  ext : Nat → Bool → Nat := fun _ _ => 0
  ic : IC := {}

namespace EGraph

/-- The state `_InitGraph` leaves (graphUtils.c 203-241) around an edge store and vertex information. -/
def ofP (p : PGraph) : EGraph := { p := p, kids := LC.new (1 + p.g.N), roots := LC.new (1 + p.g.N) }

def setP (s : EGraph) (p : PGraph) : EGraph := { s with p := p }
def setG (s : EGraph) (g : Graph) : EGraph := { s with p := s.p.setG g }

/-- `gp_SetExtFaceVertex` (graphStructures.h 347). -/
def setExt (s : EGraph) (v : Nat) (b : Bool) (w : Nat) : Option EGraph :=
  if v < s.p.g.vSize then some { s with ext := fun x c => if x = v ∧ c = b then w else s.ext x c } else none

/-- `gp_SetVertexSortedDFSChildList(uparent, gp_AppendDFSChild(uparent, c))` (graphEmbed.c 228-229, graphStructures.h
466-472). -/
def appendChild (s : EGraph) (u c : Nat) : Option EGraph := do
  let r ← s.p.rdVI u
  let (kids, head) ← LC.append s.kids r.sortedDFSChildList c
  let p ← s.p.wrVI u { r with sortedDFSChildList := head }
  return { s with p := p, kids := kids }

/-- The records for a tree arc `e` to the vertex with number `d`, graphEmbed.c 221-236. -/
def treeArc (s : EGraph) (u uparent e : Nat) : Option EGraph :=
  if e ≠ 0 then do
    let g ← s.p.g.setTypes e 14 6
    let d ← g.getIndex u
    let s ← (s.setG g).appendChild uparent d
    let R := d + s.p.g.N
    let g ← s.p.g.setArc R false e
    let g ← g.setArc R true e
    return s.setG g
  else some s

/-- Unlink the twin of a back arc from its list, graphEmbed.c 265-275. -/
def unlinkTwin (g : Graph) (w t : Nat) : Option Graph := do
  let ePrev ← g.getAdj t true
  let eNext ← g.getAdj t false
  let g ← if ePrev ≠ 0 then g.setAdj ePrev false eNext else g.setArc w false eNext
  if eNext ≠ 0 then g.setAdj eNext true ePrev else g.setArc w true ePrev

/-- Append it to the circular forward arc list of the ancestor, graphEmbed.c 277-290. -/
def linkFwd (p : PGraph) (w t : Nat) : Option PGraph := do
  let r ← p.rdVI w
  if r.fwdArcList ≠ 0 then do
    let f := r.fwdArcList
    let ePrev ← p.g.getAdj f true
    let g ← p.g.setAdj t true ePrev
    let g ← g.setAdj t false f
    let g ← g.setAdj f true t
    let g ← g.setAdj ePrev false t
    return p.setG g
  else do
    let p ← p.wrVI w { r with fwdArcList := t }
    let g ← p.g.setAdj t true t
    let g ← g.setAdj t false t
    return p.setG g

/-- A back arc `e` from `u`, graphEmbed.c 256-296. -/
def backArc (p : PGraph) (u e : Nat) : Option PGraph := do
  let g ← p.g.setType e 2
  let g ← g.setType (twin e) 10
  let w ← g.getNbr e
  let g ← unlinkTwin g w (twin e)
  let p ← linkFwd (p.setG g) w (twin e)
  let i ← p.g.getIndex w
  let r ← p.rdVI u
  if i < r.leastAncestor then p.wrVI u { r with leastAncestor := i } else some p

/-- One arc of the vertex being visited, graphEmbed.c 247-297. -/
def initArc (p : PGraph) (u e : Nat) : Option PGraph := do
  let w ← p.g.getNbr e
  let b ← p.g.visited w
  let t ← p.g.getType e
  if !b then do
    let g ← p.g.push2 u e
    return p.setG g
  else if t ≠ 6 then backArc p u e
  else some p

/-- The loop over the arcs of the vertex being visited, graphEmbed.c 245-300. -/
def initArcs (u : Nat) : Nat → Nat → PGraph → Option PGraph
  | 0, e, p => if e = 0 then some p else none
  | fuel + 1, e, p =>
    if e = 0 then some p
    else do
      let p ← initArc p u e
      let e ← p.g.getAdj e false
      initArcs u fuel e p

/-- Visiting an unvisited vertex, graphEmbed.c 212-300. -/
def initVisit (s : EGraph) (u uparent e dfi : Nat) : Option EGraph := do
  let g ← s.p.g.setVisited u
  let g ← g.setIndex u dfi
  let p ← (s.p.setG g).setParent u uparent
  let s ← (s.setP p).treeArc u uparent e
  let d ← s.p.g.getIndex u
  let r ← s.p.rdVI u
  let p ← s.p.wrVI u { r with leastAncestor := d }
  let f ← p.g.getArc u false
  let p ← initArcs u p.g.eSize f p
  return s.setP p

/-- One iteration of the search, graphEmbed.c 201-302. -/
def initBody (s : EGraph) (v uparent e dfi : Nat) : Option (EGraph × Nat) := do
  let u ← if uparent = 0 then some v else s.p.g.getNbr e
  let b ← s.p.g.visited u
  if !b then do
    let s ← s.initVisit u uparent e dfi
    return (s, dfi + 1)
  else return (s, dfi)

/-- `while (sp_NonEmpty(theStack))`, graphEmbed.c 199-303. -/
def initLoop (v : Nat) : Nat → Nat → EGraph → Option (EGraph × Nat)
  | 0, dfi, s => if s.p.g.stack = [] then some (s, dfi) else none
  | fuel + 1, dfi, s =>
    match s.p.g.stack with
    | [] => some (s, dfi)
    | [_] => none
    | e :: q :: rest => do
      let (s, dfi) ← (s.setG { s.p.g with stack := rest }).initBody v q e dfi
      initLoop v fuel dfi s

/-- The outer loop over start vertices, graphEmbed.c 190-304. -/
def initOuter : Nat → Nat → Nat → EGraph → Option EGraph
  | 0, _, dfi, s => if dfi ≤ s.p.g.N then none else some s
  | fuel + 1, v, dfi, s =>
    if dfi ≤ s.p.g.N then do
      let q ← s.p.getParent v
      if q ≠ 0 then initOuter fuel (v + 1) dfi s
      else do
        let g ← s.p.g.push2 0 0
        let (s, dfi) ← initLoop v (g.eSize + 1) dfi (s.setG g)
        initOuter fuel (v + 1) dfi s
    else some s

/-- The least lowpoint of the children, graphEmbed.c 325-331. -/
def leastLow (s : EGraph) (list : Nat) : Nat → Nat → Nat → Option Nat
  | 0, c, l => if c = 0 then some l else none
  | fuel + 1, c, l =>
    if c = 0 then some l
    else do
      let low ← s.p.getLowpoint c
      let n ← LC.getNext s.kids list c
      leastLow s list fuel n (if l > low then low else l)

/-- The singleton biconnected component of a tree edge, graphEmbed.c 344-363. -/
def singleton (s : EGraph) (v : Nat) : Option EGraph := do
  let R := v + s.p.g.N
  let g := s.p.g
  let e ← g.getArc R false
  let g ← g.setAdj e true 0
  let g ← g.setAdj e false 0
  let g ← g.setNbr (twin e) R
  let g ← g.setArc v false (twin e)
  let g ← g.setArc v true (twin e)
  let g ← g.setAdj (twin e) true 0
  let g ← g.setAdj (twin e) false 0
  let s := s.setG g
  let s ← s.setExt R false v
  let s ← s.setExt R true v
  let s ← s.setExt v false R
  s.setExt v true R

/-- No arcs for a root of the search forest, graphEmbed.c 337-341. -/
def rootArcs (s : EGraph) (v : Nat) : Option EGraph := do
  let g ← s.p.g.setArc v false 0
  let g ← g.setArc v true 0
  return s.setG g

/-- The second loop for one vertex, graphEmbed.c 315-363. -/
def initVertex (s : EGraph) (v : Nat) : Option EGraph := do
  let r ← s.p.rdVI v
  let p ← s.p.wrVI v { r with visitedInfo := s.p.g.N, futurePertinentChild := r.sortedDFSChildList }
  let s := s.setP p
  let l ← s.leastLow r.sortedDFSChildList (1 + s.p.g.N) r.sortedDFSChildList r.leastAncestor
  let r ← s.p.rdVI v
  let p ← s.p.wrVI v { r with lowpoint := l }
  let s := s.setP p
  let q ← s.p.getParent v
  if q = 0 then s.rootArcs v else s.singleton v

/-- `_EmbeddingInitialize`, graphEmbed.c 159-372. -/
def embeddingInitialize (s : EGraph) : Option (EGraph × Res) :=
  if (s.p.g.stackCap : Int) < 2 * s.p.g.getArcCapacity then some (s, .notok)
  else do
    let g ← s.p.g.clearStack.clearVisitedAll
    let s ← initOuter (g.N + 1) 1 1 (s.setG g)
    let s := s.setG { s.p.g with flags := s.p.g.flags ||| 1 }
    let (p, r) ← s.p.sortVertices
    if r ≠ .ok then return (s.setP p, .notok)
    else do
      let s ← (List.range s.p.g.N).foldlM (fun s i => s.initVertex (s.p.g.N - i)) (s.setP p)
      return (s, .ok)

end EGraph
end Verif
