import Verif.DFS.Model
import Verif.Graph.Query
import Verif.Util.StrBuf

/-
Model of the adjacency list and adjacency matrix formats (io/graphIO.c): _ReadAdjMatrix, _ReadAdjList, _WriteAdjList,
_WriteAdjMatrix and the choice of the format in gp_Read and gp_ReadFromString.

Characters are bytes, given as natural numbers. `none` is undefined behaviour (access outside an array, use of a variable
that was never set, int overflow) or a loop that does not end. Not modelled: a failing allocation or write, extra data
after the graph (no extension attached: graphIO.c 546-549), characters above 127.
-/
namespace Verif
namespace Text
open SB

/-- An int computation, undefined if it overflows. -/
def ckInt (x : Int) : Option Int := if -2147483648 ≤ x ∧ x < 2147483648 then some x else none

/-- `%d` of printf for a number that is not negative; `fuel` bounds the digits. -/
def decAux : Nat → Nat → List Nat
  | 0, _ => []
  | f + 1, n => if n < 10 then [48 + n] else decAux f (n / 10) ++ [48 + n % 10]
/-- `%d` of printf, not negative. -/
def dec (n : Nat) : List Nat := decAux (n + 1) n
/-- `%d` of printf. -/
def decInt (x : Int) : List Nat := if x < 0 then 45 :: dec (-x).toNat else dec x.toNat

/-- The value of a row of digits. -/
def digitsVal (l : List Nat) : Nat := l.foldl (fun a d => 10 * a + (d - 48)) 0

/-- The sign accepted by `%d` of scanf: whether it is a minus, and the rest. -/
def sign : List Nat → Bool × List Nat
  | 45 :: t => (true, t)
  | 43 :: t => (false, t)
  | t => (false, t)

/-- `%d` of scanf on the characters `s`: the characters left and the value stored, if there is one. A value that does not
fit an int is undefined behaviour. -/
def scanInt (s : List Nat) : Option (List Nat × Option Int) :=
  match (sign (s.dropWhile isSpace)).2.takeWhile isDigit with
  | [] => some ((sign (s.dropWhile isSpace)).2, none)
  | d :: ds => do
    let v := (digitsVal (d :: ds) : Int)
    let v ← ckInt (if (sign (s.dropWhile isSpace)).1 then -v else v)
    return ((sign (s.dropWhile isSpace)).2.dropWhile isDigit, some v)

/-- `%1d` of scanf: one character, which has to be a digit for a value to be stored. -/
def scanDigit (s : List Nat) : List Nat × Option Int :=
  match s.dropWhile isSpace with
  | [] => ([], none)
  | c :: t => if isDigit c then (t, some ((c - 48 : Nat) : Int)) else if c = 45 ∨ c = 43 then (t, none) else (c :: t, none)

/-- Where a reader takes its text from: a state and the four ways to take something from it. `number`: `" %d "`; `index`:
`"%d"`; `flag`: `" %1d"`; `skip`: one character. The value is `none` if nothing was stored. -/
structure Src (σ : Type) where
  number : σ → Option (σ × Option Int)
  index : σ → Option (σ × Option Int)
  flag : σ → Option (σ × Option Int)
  skip : σ → Option σ

/-- A file: the characters to come. fscanf and fgetc, graphIO.c 42, 64, 120-122, 148, 167, 211. -/
def file : Src (List Nat) where
  number s := do
    let (t, v) ← scanInt s
    return (if v.isSome then t.dropWhile isSpace else t, v)
  index := scanInt
  flag s := some (scanDigit s)
  skip s := some s.tail

/-- A string buffer. sscanf at the read position, which is then moved, graphIO.c 43-49, 65-70, 124-132, 149-153, 168-169,
212-218. -/
def string : Src StrBuf where
  number b := do
    let b ← skipSpace b
    let (_, v) ← scanInt (← readString b)
    let b ← skipInteger b
    let b ← skipSpace b
    return (b, v)
  index b := do
    let (_, v) ← scanInt (← readString b)
    let b ← skipInteger b
    return (b, v)
  flag b := do
    let b ← skipSpace b
    let (_, v) := scanDigit (← readString b)
    let b ← skipInteger b
    return (b, v)
  skip b := some (skipChar b)

variable {σ : Type}

/-- The order of the graph, graphIO.c 35, 40-50: −1 if nothing was stored. -/
def readOrder (src : Src σ) (t : σ) : Option (σ × Int) := do
  let (t, v) ← src.number t
  return (t, v.getD (-1))

/-- gp_InitGraph of a graph that has just been created (graphUtils.c 190-241). -/
def newGraph (n : Int) : Option PGraph := if n ≤ 0 then none else some { g := Graph.init n.toNat (6 * n.toNat) }

/-- The flags of row `v` from column `w` on, `k` of them, graphIO.c 61-79. The flag keeps its value if nothing is stored;
`f` is `none` before the first value. -/
def readRow (src : Src σ) (v : Nat) : Nat → Nat → σ → Graph → Option Int → Option (σ × Graph × Option Int × Res)
  | 0, _, t, g, f => some (t, g, f, .ok)
  | k + 1, w, t, g, f => do
    let (t, x) ← src.flag t
    let y ← x <|> f
    if y ≠ 0 then do
      let (g, r) ← g.dynamicAddEdge v 0 w 0 {}
      if r ≠ .ok then some (t, g, some y, .notok) else readRow src v k (w + 1) t g (some y)
    else readRow src v k (w + 1) t g (some y)

/-- The rows from `v` on, `k` of them, graphIO.c 58-80. -/
def readRows (src : Src σ) : Nat → Nat → σ → Graph → Option Int → Option (σ × Graph × Res)
  | 0, _, t, g, _ => some (t, g, .ok)
  | k + 1, v, t, g, f => do
    let r ← g.rdV v
    let g ← g.wrV v { r with index := v }
    let (t, g, f, r) ← readRow src v (g.N - v) (v + 1) t g f
    if r ≠ .ok then some (t, g, .notok) else readRows src k (v + 1) t g f

/-- `_ReadAdjMatrix`, graphIO.c 32-82. -/
def readAdjMatrix (src : Src σ) (t : σ) : Option (σ × Option PGraph × Res) := do
  let (t, n) ← readOrder src t
  match newGraph n with
  | none => some (t, none, .notok)
  | some s => do
    let (t, g, r) ← readRows src s.g.N 1 t s.g none
    return (t, some (s.setG g), r)

/-- `gp_GetVertexVisitedInfo` (graphStructures.h 411). -/
def getInfo (s : PGraph) (v : Nat) : Option Nat := do return (← s.rdVI v).visitedInfo
/-- `gp_SetVertexVisitedInfo` (graphStructures.h 412). -/
def setInfo (s : PGraph) (v x : Nat) : Option PGraph := do s.wrVI v { (← s.rdVI v) with visitedInfo := x }

/-- Note the arcs of the saved list, graphIO.c 189-194. -/
def noteArcs : Nat → PGraph → Nat → Option PGraph
  | 0, s, e => if e = 0 then some s else none
  | fuel + 1, s, e =>
    if e = 0 then some s
    else do
      let s ← setInfo s (← s.g.getNbr e) e
      noteArcs fuel s (← s.g.getAdj e false)

/-- Save the list of a vertex, graphIO.c 181-203: the first arc of the saved, circular list. -/
def saveList (s : PGraph) (v : Nat) : Option (PGraph × Nat) := do
  let adjList ← s.g.getArc v false
  if adjList = 0 then some (s, 0)
  else do
    let s ← noteArcs s.g.eSize s adjList
    let last ← s.g.getArc v true
    let g ← s.g.setAdj adjList true last
    let g ← g.setAdj last false adjList
    let g ← g.setArc v false 0
    let g ← g.setArc v true 0
    return (s.setG g, adjList)

/-- `gp_AttachFirstArc` (graphStructures.h 626-636). -/
def attachFirst (g : Graph) (v arc : Nat) : Option Graph := do
  let first ← g.getArc v false
  let g ← if first ≠ 0 then do (← g.setAdj arc false first).setAdj first true arc
          else do (← g.setAdj arc false 0).setArc v true arc
  (← g.setAdj arc true 0).setArc v false arc

/-- Take an arc out of the saved list, graphIO.c 251-257 and 289-293. -/
def takeOut (g : Graph) (adjList e : Nat) : Option (Graph × Nat) := do
  let n ← g.getAdj e false
  let p ← g.getAdj e true
  let g ← g.setAdj n true p
  let g ← g.setAdj (← g.getAdj e true) false (← g.getAdj e false)
  return (g, if adjList = e then (if n = e then 0 else n) else adjList)

/-- Put an arc of the saved list into the list of `v`, graphIO.c 246-260. -/
def pullArc (s : PGraph) (v w adjList e : Nat) : Option (PGraph × Nat) := do
  let s ← setInfo s w 0
  let (g, adjList) ← takeOut s.g adjList e
  let g ← attachFirst g v e
  return (s.setG g, adjList)

/-- A directed edge to a preceding vertex, graphIO.c 266-274. -/
def addDirected (s : PGraph) (v w : Nat) : Option (PGraph × Res) := do
  let (g, r) ← s.g.dynamicAddEdge v 0 w 0 {}
  if r ≠ .ok then some (s.setG g, r)
  else do
    let g ← g.setDirection (← g.getArc w false) Graph.INONLY
    return (s.setG g, .ok)

/-- What is done for the neighbour `w` read for `v`, graphIO.c 225-276: the state, the saved list and the return code if
the function returns. -/
def neighborStep (s : PGraph) (v : Nat) (adjList : Nat) (w : Int) : Option (PGraph × Nat × Res) :=
  if w > s.g.N then some (s, adjList, .notok)
  else if w = v then some (s, adjList, .notok)
  else if v < w then do
    let (g, r) ← s.g.dynamicAddEdge v 0 w 0 {}
    return (s.setG g, adjList, r)
  else do
    let e ← getInfo s w.toNat
    if e ≠ 0 then do
      let (s, adjList) ← pullArc s v w.toNat adjList e
      return (s, adjList, .ok)
    else do
      let (s, r) ← addDirected s v w.toNat
      return (s, adjList, r)

/-- The value of a variable after a read, with the offset of zero-based files, graphIO.c 219 and 156. -/
def store (x old : Option Int) (zeroBased : Bool) : Option Int := do
  let y ← x <|> old
  ckInt (y + if zeroBased then 1 else 0)

/-- The loop over the neighbours of `v`, graphIO.c 206-277; `W` keeps its value if nothing is stored. -/
def readNeighbors (src : Src σ) (zeroBased : Bool) (v : Nat) :
    Nat → σ → PGraph → Nat → Option Int → Option (σ × PGraph × Nat × Option Int × Res)
  | 0, _, _, _, _ => none
  | fuel + 1, t, s, adjList, W => do
    let (t, x) ← src.number t
    let w ← store x W zeroBased
    if w < 1 then some (t, s, adjList, some w, .ok)
    else do
      let (s, adjList, r) ← neighborStep s v adjList w
      if r ≠ .ok then some (t, s, adjList, some w, r) else readNeighbors src zeroBased v fuel t s adjList (some w)

/-- The arcs left in the saved list, graphIO.c 284-299. -/
def leftOver (v : Nat) : Nat → PGraph → Nat → Option PGraph
  | 0, s, adjList => if adjList = 0 then some s else none
  | fuel + 1, s, adjList =>
    if adjList = 0 then some s
    else do
      let s ← setInfo s (← s.g.getNbr adjList) 0
      let (g, next) ← takeOut s.g adjList adjList
      let g ← attachFirst g v adjList
      let g ← g.setDirection adjList Graph.INONLY
      leftOver v fuel (s.setG g) next

/-- One vertex after its number has been read, graphIO.c 165-299. -/
def readVertex (src : Src σ) (fuel : Nat) (zeroBased : Bool) (v : Nat) (t : σ) (s : PGraph) (W : Option Int) :
    Option (σ × PGraph × Option Int × Res) := do
  let t ← src.skip t
  let (s, adjList) ← saveList s v
  let (t, s, adjList, W, r) ← readNeighbors src zeroBased v fuel t s adjList W
  if r ≠ .ok then some (t, s, W, r)
  else do
    let s ← leftOver v s.g.eSize s adjList
    return (t, s, W, .ok)

/-- The vertices from `v` on, `k` of them, graphIO.c 144-300. The number is stored as the index of the vertex only if it is the
right one (otherwise the function returns). Result: also whether the numbering is zero-based. -/
def readVertices (src : Src σ) (fuel : Nat) : Nat → Nat → Bool → σ → PGraph → Option Int → Option Int →
    Option (σ × PGraph × Bool × Res)
  | 0, _, z, t, s, _, _ => some (t, s, z, .ok)
  | k + 1, v, z, t, s, ix, W => do
    let (t, x) ← src.index t
    let i ← x <|> ix
    let z := z || (decide (i = 0) && decide (v = 1))
    let i ← ckInt (i + if z then 1 else 0)
    if i ≠ v then some (t, s, z, .notok)
    else do
      let r ← s.g.rdV v
      let g ← s.g.wrV v { r with index := v }
      let (t, s, W, r) ← readVertex src fuel z v t (s.setG g) W
      if r ≠ .ok then some (t, s, z, r) else readVertices src fuel k (v + 1) z t s (some i) W

/-- The end of `_ReadAdjList`, graphIO.c 302-305. -/
def markZero (z : Bool) (s : PGraph) : PGraph := if z then s.setG { s.g with flags := s.g.flags ||| 8 } else s

/-- `_ReadAdjList`, graphIO.c 109-306. The visited information of a new graph is NIL already. -/
def readAdjList (src : Src σ) (fuel : Nat) (t : σ) : Option (σ × Option PGraph × Res) := do
  let t ← src.skip t
  let t ← src.skip t
  let (t, n) ← readOrder src t
  match newGraph n with
  | none => some (t, none, .notok)
  | some s => do
    let (t, s, z, r) ← readVertices src fuel s.g.N 1 false t s none none
    if r ≠ .ok then some (t, some s, r) else some (t, some (markZero z s), .ok)

/-! ### Writing -/

/-- `FLAGS_ZEROBASEDIO` of the graph flags (graph.h). -/
def zeroBased (g : Graph) : Bool := g.flags &&& 8 ≠ 0
/-- A vertex as written, graphIO.c 564, 586, 599. -/
def shown (g : Graph) (v : Nat) : List Nat := decInt ((v : Int) - if zeroBased g then 1 else 0)

/-- The neighbours written for a list of arcs, graphIO.c 596-607. -/
def neighborText (g : Graph) : List Nat → Option (List Nat)
  | [] => some []
  | e :: es => do
    let d ← g.getDirection e
    let w ← g.getNbr e
    let rest ← neighborText g es
    return (if d ≠ Graph.INONLY then 32 :: shown g w ++ rest else rest)

/-- The line of a vertex, graphIO.c 583-618. The arcs are visited from the last to the first. -/
def vertexText (g : Graph) (v : Nat) : Option (List Nat) := do
  let arcs ← g.walk true v
  let body ← neighborText g arcs
  return shown g v ++ [58] ++ body ++ [32] ++ decInt (if zeroBased g then -1 else 0) ++ [10]

/-- `_WriteAdjList`, graphIO.c 561-622: the text written. -/
def writeAdjList (g : Graph) : Option (List Nat) := do
  let lines ← (List.range g.N).mapM fun i => vertexText g (i + 1)
  return [78, 61] ++ dec g.N ++ [10] ++ lines.flatten

/-- The row of a vertex before its arcs are seen, graphIO.c 663-666. -/
def emptyRow (N v : Nat) : List Nat := List.replicate v 32 ++ List.replicate (N - v) 48

/-- Mark the arcs of a vertex, graphIO.c 668-678. `none` inside: a directed edge, NOTOK. The row has `N + 2` characters. -/
def markArcs (g : Graph) (v : Nat) : List Nat → List Nat → Option (Option (List Nat))
  | [], row => some (some row)
  | e :: es, row => do
    let d ← g.getDirection e
    let w ← g.getNbr e
    if d = Graph.INONLY then some none
    else if w > v then (if w - 1 < g.N + 2 then markArcs g v es (row.set (w - 1) 49) else none)
    else markArcs g v es row

/-- The rows from `v` on, `k` of them, graphIO.c 661-688. Row[N] and Row[N + 1] are set after the arcs. -/
def matrixRows (g : Graph) : Nat → Nat → Option (List Nat × Res)
  | 0, _ => some ([], .ok)
  | k + 1, v => do
    let arcs ← g.walk false v
    match ← markArcs g v arcs (emptyRow g.N v) with
    | none => some ([], .notok)
    | some row => do
      let (rest, r) ← matrixRows g k (v + 1)
      return (row ++ [10] ++ rest, r)

/-- `_WriteAdjMatrix`, graphIO.c 637-693: the text written and the return code. -/
def writeAdjMatrix (g : Graph) : Option (List Nat × Res) := do
  let (rows, r) ← matrixRows g g.N 1
  return (dec g.N ++ [10] ++ rows, r)

/-! ### The choice of the format -/

/-- The formats told apart by gp_Read and gp_ReadFromString. -/
inductive Format | leda | adjList | adjMatrix | graph6
  deriving DecidableEq, Repr

/-- The characters of "LEDA.GRAPH". -/
def ledaMark : List Nat := [76, 69, 68, 65, 46, 71, 82, 65, 80, 72]

/-- The tests on the first line, graphIO.c 393-408 and 496-521, on the C string `s`. -/
def detect (s : List Nat) : Format :=
  if ledaMark <+: s then .leda
  else if [78, 61] <+: s then .adjList
  else if isDigit (s.headD 0) then .adjMatrix
  else .graph6

/-- The line gp_Read looks at: fgets with a buffer of 255 characters, graphIO.c 391. Undefined for an empty file: the buffer
is not set. A NUL in the file ends the C string. -/
def firstLine (s : List Nat) : Option (List Nat) :=
  if s = [] then none
  else some (((s.take 254).takeWhile (· ≠ 10) ++ if 10 ∈ s.take 254 then [10] else []).takeWhile (· ≠ 0))

/-- The buffer of gp_ReadFromString, graphIO.c 479-494: sb_New(0) and sb_ConcatString of the C string `s`. -/
def strBuf (s : List Nat) : StrBuf := ⟨s ++ [0], s.length, s.length, 0⟩

end Text
end Verif
