import Verif.IO.Text
import Verif.Random.Model
import Verif.Test.Model
import Verif.Util.ListColl

/-
Model of the drawing extension (planarityRelated/graphDrawPlanar.c): the data it keeps per vertex and edge, the test of a
drawing, the rendition as text, and the computation of the drawing.

`none` is undefined behaviour (access outside an array, int overflow) or a loop that does not stop. A failing allocation
is not modelled. The context belongs to the graph it is used with: its arrays have the sizes of the graph's.
-/
namespace Verif
namespace Draw
open Graph

/-- `DrawPlanar_VertexInfo`, graphDrawPlanar.private.h 52-57: the row, the first and last column, and what the embedder
records. `end` is `stop`. -/
structure DVert where
  pos : Int := 0
  start : Int := 0
  stop : Int := 0
  flag : Nat := 0
  ancestor : Nat := 0
  ancestorChild : Nat := 0
  tie0 : Nat := 0
  tie1 : Nat := 0
  deriving DecidableEq, Repr

/-- `DrawPlanar_EdgeRec`, graphDrawPlanar.private.h 25-28: the column, the first and last row. -/
structure DEdge where
  pos : Int := 0
  start : Int := 0
  stop : Int := 0
  deriving DecidableEq, Repr

/-- `DrawPlanarContext`, graphDrawPlanar.private.h 67-84: the two arrays. -/
structure Ctx where
  VI : Nat → DVert := fun _ => {}
  E : Nat → DEdge := fun _ => {}

/-- Read `context->VI[v]`: 1 + N entries (graphDrawPlanar_Extensions.c 198-214). -/
def rdDV (c : Ctx) (g : Graph) (v : Nat) : Option DVert := if v < 1 + g.N then some (c.VI v) else none
/-- Write `context->VI[v]`. -/
def wrDV (c : Ctx) (g : Graph) (v : Nat) (r : DVert) : Option Ctx :=
  if v < 1 + g.N then some { c with VI := Function.update c.VI v r } else none
/-- Read `context->E[e]`: as many entries as the graph has edge records (graphDrawPlanar_Extensions.c 198-214). -/
def rdDE (c : Ctx) (g : Graph) (e : Nat) : Option DEdge := if e < g.eSize then some (c.E e) else none
/-- Write `context->E[e]`. -/
def wrDE (c : Ctx) (g : Graph) (e : Nat) (r : DEdge) : Option Ctx :=
  if e < g.eSize then some { c with E := Function.update c.E e r } else none

/-- An array index computed as an int. -/
def idx (i : Int) : Option Nat := if 0 ≤ i then some i.toNat else none

/-- A loop that is left with `false` (return NOTOK) as soon as one step says so. -/
def tryAll {σ : Type} (f : Nat → σ → Option (σ × Bool)) : List Nat → σ → Option (σ × Bool)
  | [], s => some (s, true)
  | x :: xs, s => do
    let (s, ok) ← f x s
    if ok then tryAll f xs s else return (s, false)

/-- The vertices 1 to N. -/
def verts (g : Graph) : List Nat := (List.range g.N).map (· + 1)
/-- The edges `e = gp_GetFirstEdge; e < EsizeOccupied; e += 2`. -/
def edges (g : Graph) : List Nat := (List.range (g.M + g.holes.length)).map (fun k => 2 + 2 * k)

/-- `_ClearVisitedFlags`, graphUtils.c 545-577: the vertices, the virtual ones too, and the edge records in use. -/
def clearMarks (g : Graph) : Option Graph := do
  let g ← (List.range (g.N + g.N)).foldlM (fun g i => g.clearVisited (i + 1)) g
  (List.range (2 * (g.M + g.holes.length))).foldlM (fun g i => Random.clearEdgeVisited g (i + 2)) g

/-- The test of one vertex, graphDrawPlanar.c 956-980. The row is used as an index of the graph's vertices. -/
def vertexTest (c : Ctx) (v : Nat) (g : Graph) : Option (Graph × Bool) := do
  let d ← rdDV c g v
  if g.M > 0 ∧ (d.pos < 0 ∨ d.pos ≥ g.N ∨ d.start < 0 ∨ d.start > d.stop ∨ d.stop ≥ g.M) then return (g, false)
  else do
    let i ← idx (d.pos + 1)
    if ← g.visited i then return (g, false)
    else do
      let g ← g.setVisited i
      return (g, true)

/-- The test of one edge, graphDrawPlanar.c 988-1019. -/
def edgeTest (c : Ctx) (e : Nat) (g : Graph) : Option (Graph × Bool) := do
  let a ← rdDE c g e
  let b ← rdDE c g (twin e)
  if a.pos ≠ b.pos ∨ a.start ≠ b.start ∨ a.stop ≠ b.stop ∨ a.pos < 0 ∨ a.pos ≥ g.M ∨ a.start < 0 ∨ a.start > a.stop ∨
      a.stop ≥ g.N then return (g, false)
  else do
    let i ← idx (a.pos * 2 + 2)
    if ← Test.edgeVisited g i then return (g, false)
    else if ← Test.edgeVisited g (twin i) then return (g, false)
    else do
      let g ← Random.setEdgeVisited g i
      let g ← Random.setEdgeVisited g (twin i)
      return (g, true)

/-- The test of an edge against a vertex, graphDrawPlanar.c 1033-1062. -/
def crossTest (c : Ctx) (g : Graph) (e v : Nat) : Option Bool := do
  let a ← rdDE c g e
  let d ← rdDV c g v
  let x ← g.getNbr e
  let y ← g.getNbr (twin e)
  if x = v ∨ y = v then
    if a.start ≠ d.pos ∧ a.stop ≠ d.pos then return false
    else if a.pos < d.start ∨ a.pos > d.stop then return false
    else return true
  else if a.start ≤ d.pos ∧ a.stop ≥ d.pos then
    if d.start ≤ a.pos ∧ d.stop ≥ a.pos then return false else return true
  else return true

/-- The loop over the vertices, graphDrawPlanar.c 1029-1063. -/
def crossRow (c : Ctx) (e : Nat) (g : Graph) : Option (Graph × Bool) :=
  tryAll (fun v g => do return (g, ← crossTest c g e v)) (verts g) g

/-- `_CheckVisibilityRepresentationIntegrity`, graphDrawPlanar.c 941-1069. -/
def check (c : Ctx) (g : Graph) : Option (Graph × Res) :=
  if g.holes ≠ [] then some (g, .notok)
  else do
    let g ← clearMarks g
    let (g, ok) ← tryAll (vertexTest c) (verts g) g
    if !ok then return (g, .notok)
    else do
      let (g, ok) ← tryAll (edgeTest c) (edges g) g
      if !ok then return (g, .notok)
      else do
        let (g, ok) ← tryAll (crossRow c) (edges g) g
        return (g, if ok then .ok else .notok)

/-- A string on the heap: its size and contents; `none` is a byte never written. -/
structure Buf where
  size : Nat
  at_ : Nat → Option Nat := fun _ => none

/-- `visRep[i] = x`. -/
def put (b : Buf) (i : Int) (x : Nat) : Option Buf :=
  if 0 ≤ i ∧ i < b.size then some { b with at_ := Function.update b.at_ i.toNat (some x) } else none

/-- Store `l` at `i`, `i + 1`, … (memcpy of the label, graphDrawPlanar.c 836). -/
def putAll (b : Buf) (i : Int) : List Nat → Option Buf
  | [] => some b
  | x :: l => do putAll (← put b i x) (i + 1) l

/-- Blank the rows, graphDrawPlanar.c 812-822. -/
def clearRow (M : Nat) (b : Buf) (n : Nat) : Option Buf := do
  let b ← (List.range M).foldlM (fun b (m : Nat) => do
    let b ← put b ((2 * n) * (M + 1) + m : Nat) 32
    put b ((2 * n + 1) * (M + 1) + m : Nat) 32) b
  let b ← put b ((2 * n) * (M + 1) + M : Nat) 10
  put b ((2 * n + 1) * (M + 1) + M : Nat) 10

/-- The dashes of a vertex, graphDrawPlanar.c 828-829: from `i` on, `k` of them. -/
def dashes (row : Int) : Nat → Int → Buf → Option Buf
  | 0, _, b => some b
  | k + 1, i, b => do dashes row k (i + 1) (← put b (row + i) 45)

/-- The text of a label. -/
def label (zero : Bool) (v : Nat) : List Nat := Text.dec (if zero then v - 1 else v)

/-- The width of a vertex, converted to unsigned and compared with the length of the label, graphDrawPlanar.c 834. -/
def wide (d : DVert) (l : List Nat) : Bool := d.stop - d.start + 1 < 0 ∨ (l.length : Int) ≤ d.stop - d.start + 1

/-- The label of a vertex, graphDrawPlanar.c 832-847. C's division by 2 rounds towards zero. -/
def drawLabel (M : Nat) (d : DVert) (l : List Nat) (b : Buf) : Option Buf :=
  let mid := (d.start + d.stop).tdiv 2
  if wide d l then putAll b (2 * d.pos * (M + 1) + mid) l
  else do
    let b ← put b (2 * d.pos * (M + 1) + mid) (if l.length = 2 then l.headD 0 else 42)
    put b ((2 * d.pos + 1) * (M + 1) + mid) (l.getLastD 0)

/-- One vertex, graphDrawPlanar.c 825-848. -/
def drawVertex (zero : Bool) (c : Ctx) (g : Graph) (b : Buf) (v : Nat) : Option Buf := do
  let d ← rdDV c g v
  let b ← dashes (2 * d.pos * (g.M + 1)) (d.stop - d.start + 1).toNat d.start b
  drawLabel g.M d (label zero v) b

/-- The bars of an edge, graphDrawPlanar.c 855-860: from row `i` on, `k` of them. -/
def bars (M : Nat) (col first : Int) : Nat → Int → Buf → Option Buf
  | 0, _, b => some b
  | k + 1, i, b => do
    let b ← if i > first then put b (2 * i * (M + 1) + col) 124 else some b
    let b ← put b ((2 * i + 1) * (M + 1) + col) 124
    bars M col first k (i + 1) b

/-- One edge, graphDrawPlanar.c 854-860. -/
def drawEdge (c : Ctx) (g : Graph) (b : Buf) (e : Nat) : Option Buf := do
  let a ← rdDE c g e
  bars g.M a.pos a.start (a.stop - a.start).toNat a.start b

/-- `_RenderToString` with `gp_DrawPlanar_RenderToString`, graphDrawPlanar.c 788-869, 881-890. `none` inside: NOTOK. The
size is computed as an int; the other indexes are not checked for overflow, being smaller if they are in range.
FLAGS_ZEROBASEDIO is 8. -/
def render (c : Ctx) (g : Graph) : Option (Option Buf) :=
  if g.holes ≠ [] then some none
  else do
    let n ← Text.ckInt (((g.M : Int) + 1) * 2 * g.N + 1)
    let b ← (List.range g.N).foldlM (clearRow g.M) { size := n.toNat }
    let b ← (verts g).foldlM (drawVertex (g.flags &&& 8 ≠ 0) c g) b
    let b ← (edges g).foldlM (drawEdge c g) b
    let b ← put b (((g.M : Int) + 1) * 2 * g.N) 0
    return some b

/-- Whether the child of the ancestor lies below it, graphDrawPlanar.c 243. NIL counts as below. DRAWINGFLAG_BELOW is 3. -/
def childBelow (c : Ctx) (g : Graph) (x : Nat) : Option Bool :=
  if x = 0 then some true else do return (← rdDV c g x).flag = 3

/-- The new drawing flag, graphDrawPlanar.c 238-255. DRAWINGFLAG_BETWEEN is 2, DRAWINGFLAG_ABOVE 4. -/
def newFlag (below : Bool) (flag : Nat) : Nat :=
  if below then (if flag = 2 then 4 else 3) else (if flag = 2 then 3 else 4)

/-- The place of `w` in the order, graphDrawPlanar.c 207-261. `none` inside: an unresolved tie (DRAWINGFLAG_TIE is 1), the
function returns NOTOK. -/
def place (s : PGraph) (c : Ctx) (o : LC.Coll) (w : Nat) : Option (Option (Ctx × LC.Coll)) := do
  let p ← s.getParent w
  let d ← rdDV c s.g w
  if p = 0 then do
    let (o, _) ← LC.append o 0 w
    let c ← wrDV c s.g w { d with flag := 3 }
    return some (c, o)
  else if d.flag = 1 then return none
  else do
    let b ← childBelow c s.g d.ancestorChild
    let f := newFlag b d.flag
    let c ← wrDV c s.g w { d with flag := f }
    let o ← if f = 3 then LC.insertAfter o p w else LC.insertBefore o p w
    return some (c, o)

/-- `while (!sp_IsEmpty(theStack))`, graphDrawPlanar.c 203-272. -/
def orderLoop : Nat → PGraph → Ctx → LC.Coll → Option (PGraph × Option (Ctx × LC.Coll))
  | 0, s, c, o => if s.g.stack = [] then some (s, some (c, o)) else none
  | fuel + 1, s, c, o =>
    match s.g.stack with
    | [] => some (s, some (c, o))
    | w :: rest => do
      let s := s.setG { s.g with stack := rest }
      match ← place s c o w with
      | none => return (s, none)
      | some (c, o) => do
        let f ← s.g.getArc w false
        let g ← PGraph.pushChildren s.g.eSize f s.g
        orderLoop fuel (s.setG g) c o

/-- Assign the rows in the order, graphDrawPlanar.c 274-281. -/
def assignRows (g : Graph) (o : LC.Coll) (root : Nat) : Nat → Nat → Nat → Ctx → Option (Ctx × Nat)
  | 0, v, k, c => if v = 0 then some (c, k) else none
  | fuel + 1, v, k, c =>
    if v = 0 then some (c, k)
    else do
      let d ← rdDV c g v
      let c ← wrDV c g v { d with pos := k }
      assignRows g o root fuel (← LC.getNext o root v) (k + 1) c

/-- `_ComputeVertexPositionsInComponent`, graphDrawPlanar.c 189-287. The list has `gp_PrimaryVertexIndexBound` = 1 + N
entries. On NOTOK the list is not freed. -/
def rowsOfComponent (s : PGraph) (c : Ctx) (root k : Nat) : Option (PGraph × Option (Ctx × Nat)) := do
  let g ← s.g.clearStack.push root
  let (s, r) ← orderLoop g.N (s.setG g) c (LC.new (1 + g.N))
  match r with
  | none => return (s, none)
  | some (c, o) => do
    let (c, k) ← assignRows s.g o root (1 + s.g.N) root k c
    return (s, some (c, k))

/-- The loop of `_ComputeVertexPositions`, graphDrawPlanar.c 82-93. -/
def rowsLoop : List Nat → PGraph → Ctx → Nat → Option (PGraph × Option (Ctx × Nat))
  | [], s, c, k => some (s, some (c, k))
  | v :: vs, s, c, k => do
    if (← s.getParent v) = 0 then do
      match ← rowsOfComponent s c v k with
      | (s, none) => return (s, none)
      | (s, some (c, k)) => rowsLoop vs s c k
    else rowsLoop vs s c k

/-- `_ComputeVertexPositions`, graphDrawPlanar.c 76-96. `none` inside: NOTOK. -/
def computeRows (s : PGraph) (c : Ctx) : Option (PGraph × Option Ctx) := do
  let (s, r) ← rowsLoop (verts s.g) s c 0
  return (s, r.map Prod.fst)

/-- Sort the vertices by row, graphDrawPlanar.c 346-352. An entry `none` has not been written. -/
def sortRows (g : Graph) (c : Ctx) : Option (Nat → Option Nat) :=
  (verts g).foldlM (fun o v => do
    let d ← rdDV c g v
    let i ← idx d.pos
    if i < g.N then some (Function.update o i (some v)) else none) (fun _ => none)

/-- What the sweep changes: the generator edges, `visitedInfo` of the vertices (1 + N entries), kept apart from the graph as
`NIL - 1` is negative; the list of edges (by half their index) and its head. -/
structure Sweep where
  gen : Nat → Int := fun _ => 0
  list : LC.Coll
  head : Nat := 0

/-- `gp_GetVertexVisitedInfo` (graphStructures.h 411). -/
def rdGen (g : Graph) (w : Sweep) (v : Nat) : Option Int := if v < 1 + g.N then some (w.gen v) else none
/-- `gp_SetVertexVisitedInfo` (graphStructures.h 412). -/
def wrGen (g : Graph) (w : Sweep) (v : Nat) (x : Int) : Option Sweep :=
  if v < 1 + g.N then some { w with gen := Function.update w.gen v x } else none

/-- The edges of a root, graphDrawPlanar.c 402-416. -/
def rootArcs (g : Graph) : Nat → Nat → Sweep → Option Sweep
  | 0, e, w => if e = 0 then some w else none
  | fuel + 1, e, w =>
    if e = 0 then some w
    else do
      let (l, h) ← LC.append w.list w.head (e / 2)
      let w ← wrGen g { w with list := l, head := h } (← g.getNbr e) e
      rootArcs g fuel (← g.getAdj e false) w

/-- One edge of another vertex in row `p`, graphDrawPlanar.c 442-465: the new point of insertion. -/
def downArc (g : Graph) (c : Ctx) (p : Nat) (cur ins : Nat) (w : Sweep) : Option (Nat × Sweep) := do
  let n ← g.getNbr cur
  let d ← rdDV c g n
  if d.pos > p then do
    let l ← LC.insertAfter w.list ins (cur / 2)
    let w := { w with list := l }
    let x ← rdGen g w n
    let w ← if x = 0 then wrGen g w n cur else some w
    return (cur / 2, w)
  else return (ins, w)

/-- The loop around the vertex up to the generator edge `e`, graphDrawPlanar.c 436-469. -/
def downArcs (g : Graph) (c : Ctx) (p e : Nat) : Nat → Nat → Nat → Sweep → Option Sweep
  | 0, cur, _, w => if cur = e then some w else none
  | fuel + 1, cur, ins, w =>
    if cur = e then some w
    else do
      let (ins, w) ← downArc g c p cur ins w
      downArcs g c p e fuel (← Test.nextCirc g cur) ins w

/-- The vertex in row `p`, graphDrawPlanar.c 383-470. `none` inside: NOTOK, there is no generator edge. -/
def sweepVertex (s : PGraph) (c : Ctx) (order : Nat → Option Nat) (p : Nat) (w : Sweep) : Option (Option Sweep) := do
  let v ← order p
  if (← s.getParent v) = 0 then do
    let w ← wrGen s.g w v (-1)
    let e ← s.g.getArc v false
    return some (← rootArcs s.g s.g.eSize e w)
  else do
    let x ← rdGen s.g w v
    if x = 0 then return none
    else do
      let e := twin (← idx x)
      let cur ← Test.nextCirc s.g e
      return some (← downArcs s.g c p e s.g.eSize cur (e / 2) w)

/-- The loop over the rows, graphDrawPlanar.c 380-475. -/
def sweepLoop (s : PGraph) (c : Ctx) (order : Nat → Option Nat) : List Nat → Sweep → Option (Option Sweep)
  | [], w => some (some w)
  | p :: ps, w => do
    match ← sweepVertex s c order p w with
    | none => return none
    | some w => sweepLoop s c order ps w

/-- Assign the columns in the order of the list, graphDrawPlanar.c 478-490. -/
def assignCols (g : Graph) (l : LC.Coll) (head : Nat) : Nat → Nat → Nat → Ctx → Option Ctx
  | 0, i, _, c => if i = 0 then some c else none
  | fuel + 1, i, k, c =>
    if i = 0 then some c
    else do
      let c ← wrDE c g (twin (2 * i)) { (← rdDE c g (twin (2 * i))) with pos := k }
      let c ← wrDE c g (2 * i) { (← rdDE c g (2 * i)) with pos := k }
      assignCols g l head fuel (← LC.getNext l head i) (k + 1) c

/-- `_ComputeEdgePositions`, graphDrawPlanar.c 334-499. The list has 1 + M entries; without edges there is none.
`none` inside: NOTOK. Then neither the list nor the sorted vertices are freed. -/
def computeCols (s : PGraph) (c : Ctx) : Option (Option Ctx) := do
  let order ← sortRows s.g c
  match ← sweepLoop s c order (List.range s.g.N) { list := LC.new (if s.g.M > 0 then 1 + s.g.M else 0) } with
  | none => return none
  | some w => do return some (← assignCols s.g w.list w.head (1 + s.g.M) w.head 0 c)

/-- The smallest and largest column of the edges of a list, graphDrawPlanar.c 529-538. -/
def rangeArcs (g : Graph) (c : Ctx) : Nat → Nat → Int → Int → Option (Int × Int)
  | 0, e, lo, hi => if e = 0 then some (lo, hi) else none
  | fuel + 1, e, lo, hi =>
    if e = 0 then some (lo, hi)
    else do
      let d ← rdDE c g e
      let lo := if lo > d.pos then d.pos else lo
      let hi := if hi < d.pos then d.pos else hi
      rangeArcs g c fuel (← g.getAdj e false) lo hi

/-- The columns of one vertex, graphDrawPlanar.c 516-542. -/
def rangeOf (g : Graph) (c : Ctx) (v : Nat) : Option Ctx := do
  let e ← g.getArc v false
  let (lo, hi) ← if e = 0 then some (0, 0) else rangeArcs g c g.eSize e (g.M + 1) (-1)
  wrDV c g v { (← rdDV c g v) with start := lo, stop := hi }

/-- `_ComputeVertexRanges`, graphDrawPlanar.c 509-546. -/
def computeVertexRanges (g : Graph) (c : Ctx) : Option Ctx := (verts g).foldlM (rangeOf g) c

/-- The rows of one edge, graphDrawPlanar.c 568-588. -/
def edgeRange (g : Graph) (c : Ctx) (e : Nat) : Option Ctx := do
  let a ← rdDV c g (← g.getNbr e)
  let b ← rdDV c g (← g.getNbr (twin e))
  let lo := if a.pos < b.pos then a.pos else b.pos
  let hi := if a.pos < b.pos then b.pos else a.pos
  let c ← wrDE c g e { (← rdDE c g e) with start := lo, stop := hi }
  wrDE c g (twin e) { (← rdDE c g (twin e)) with start := lo, stop := hi }

/-- `_ComputeEdgeRanges`, graphDrawPlanar.c 555-592, after the test for free slots. -/
def computeEdgeRanges (g : Graph) (c : Ctx) : Option Ctx := (edges g).foldlM (edgeRange g) c

/-- `_ComputeVisibilityRepresentation`, graphDrawPlanar.c 45-63. `none` inside: NOTOK. -/
def computeDrawing (s : PGraph) (c : Ctx) : Option (PGraph × Option Ctx) :=
  if s.g.holes ≠ [] then some (s, none)
  else do
    match ← computeRows s c with
    | (s, none) => return (s, none)
    | (s, some c) => do
      match ← computeCols s c with
      | none => return (s, none)
      | some c => do
        let c ← computeVertexRanges s.g c
        return (s, some (← computeEdgeRanges s.g c))

end Draw
end Verif
