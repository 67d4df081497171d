import Verif.IO.Text
import Verif.IO.G6

/-
Model of the LEDA reader and of gp_Read and gp_ReadFromString (io/graphIO.c) on a graph just made by gp_New. The parts of
gp_Read and gp_ReadFromString for each format are in Text.lean and G6.lean.
-/
namespace Verif
namespace Text
open SB

/-- The characters `fgets` takes from a file for a buffer of 255 characters, newline included. -/
def lineChars (s : List Nat) : List Nat := (s.take 254).takeWhile (· ≠ 10) ++ if 10 ∈ s.take 254 then [10] else []

/-- `fgets(Line, 255, Infile)`: the buffer afterwards (`none`: never set) and the file. The buffer stays at the end of the
file. A NUL ends the C string. -/
def fgets (line : Option (List Nat)) (s : List Nat) : Option (List Nat) × List Nat :=
  if s = [] then (line, s) else (some ((lineChars s).takeWhile (· ≠ 0)), s.drop (lineChars s).length)

/-- `fgets` several times. -/
def fgetsMany : Nat → Option (List Nat) → List Nat → Option (List Nat) × List Nat
  | 0, line, s => (line, s)
  | k + 1, line, s => fgetsMany k (fgets line s).1 (fgets line s).2

/-- `sscanf(Line, " %d", …)` on a buffer: the value stored, if any. -/
def scanOne (line : Option (List Nat)) : Option (Option Int) := do
  let (_, v) ← scanInt (← line)
  return v

/-- `sscanf(Line, " %d %d", …)`: the two variables afterwards. -/
def scanTwo (line : Option (List Nat)) (u v : Option Int) : Option (Option Int × Option Int) := do
  let (t, x) ← scanInt (← line)
  match x with
  | none => some (u, v)
  | some x => do
    let (_, y) ← scanInt t
    return (some x, y <|> v)

/-- `gp_IsNeighbor` of two ints: undefined if the first is no vertex (the vertex array is read outside its bounds). A
number that is no vertex is no neighbour. -/
def isNbr (g : Graph) (u v : Int) : Option Bool := if u < 0 then none else if v < 0 then some false else g.isNeighbor u.toNat v.toNat

/-- One edge of a LEDA file, graphIO.c 347-352. -/
def ledaEdge (g : Graph) (u v : Int) : Option (Graph × Res) :=
  if u = v then some (g, .ok)
  else do
    if ← isNbr g u v then some (g, .ok) else g.dynamicAddEdge u 0 v 0 {}

/-- The edges of a LEDA file, graphIO.c 343-353. -/
def ledaEdges : Nat → Option (List Nat) → List Nat → Option Int → Option Int → Graph → Option (Graph × Res)
  | 0, _, _, _, _, g => some (g, .ok)
  | k + 1, line, s, u, v, g => do
    let (u, v) ← scanTwo (fgets line s).1 u v
    let (g, r) ← ledaEdge g (← u) (← v)
    if r ≠ .ok then some (g, r) else ledaEdges k (fgets line s).1 (fgets line s).2 u v g

/-- The number of edges and the edges, graphIO.c 338-353; `v` is one more than the order after the loop before. -/
def ledaRest (g : Graph) (line : Option (List Nat)) (s : List Nat) : Option (Graph × Res) := do
  let m ← scanOne (fgets line s).1
  ledaEdges (← m).toNat (fgets line s).1 (fgets line s).2 none (some (g.N + 1 : Nat)) g

/-- `_ReadLEDAGraph`, graphIO.c 317-360; the first vertex is 1, so the offset is 0. -/
def readLeda (s : List Nat) : Option (Option PGraph × Res) := do
  let n ← scanOne (fgetsMany 4 none s).1
  match newGraph (n.getD (-1)) with
  | none => some (none, .notok)
  | some p => do
    let l := fgetsMany p.g.N (fgetsMany 4 none s).1 (fgetsMany 4 none s).2
    let (g, r) ← ledaRest p.g l.1 l.2
    return (some (p.setG g), r)

/-- `gp_Read` of a file with the characters `s`, graphIO.c 380-461: the graph afterwards, if it was initialised, and the return
code. What follows the graph is given to fpReadPostprocess, which ignores it if no extension is attached (graphIO.c 546-549). -/
def gpRead (fuel : Nat) (s : List Nat) : Option (Option Graph × Res) := do
  match detect (← firstLine s) with
  | .leda => do
    let (p, r) ← readLeda s
    return (p.map (·.g), r)
  | .adjList => do
    let (_, p, r) ← readAdjList file fuel s
    return (p.map (·.g), r)
  | .adjMatrix => do
    let (_, p, r) ← readAdjMatrix file s
    return (p.map (·.g), r)
  | .graph6 => G6.readG6 ⟨true, [], s.map Int.ofNat⟩ (.fresh 0)

/-- The rest of the buffer is looked at after a successful read, graphIO.c 529-536. -/
def extraData (b : StrBuf) (r : Res) : Option Unit := if r = .ok then do let _ ← readString b; return () else some ()

/-- `gp_ReadFromString` of the C string `s`, graphIO.c 474-544. -/
def gpReadString (fuel : Nat) (s : List Nat) : Option (Option Graph × Res) :=
  match detect s with
  | .leda => some (none, .notok)
  | .adjList => do
    let (b, p, r) ← readAdjList string fuel (strBuf s)
    extraData b r
    return (p.map (·.g), r)
  | .adjMatrix => do
    let (b, p, r) ← readAdjMatrix string (strBuf s)
    extraData b r
    return (p.map (·.g), r)
  | .graph6 => G6.readG6 ⟨false, [], s.map Int.ofNat⟩ (.fresh 0)

end Text
end Verif
