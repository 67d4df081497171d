import Verif.Graph.Model

/-
Model of the functions that change the size of the arrays or copy and clear a whole graph:
gp_EnsureArcCapacity, gp_DynamicAddEdge, gp_ReinitializeGraph, gp_CopyGraph, gp_DupGraph,
gp_CopyAdjacencyLists (graphUtils.c).
-/
namespace Verif
namespace Graph

/-- Which of the allocations of `_EnsureArcCapacity` succeed: the new work stack (sp_New,
graphUtils.c 454), the new free-slot stack (461), the edge array (realloc, 469). -/
structure Allocs where
  stack : Bool := true
  holes : Bool := true
  edges : Bool := true

/-- Result of `gp_EnsureArcCapacity`: the graph, whether its pointer `E` is NULL afterwards, and
the return code. -/
structure Grown where
  g : Graph
  edgesNull : Bool
  res : Res

/-- What a later access to the graph meets: dereferencing `E` is undefined if it is NULL. -/
def Grown.deref (r : Grown) : Option Graph := if r.edgesNull then none else some r.g

/-- Content of a stack after `sp_CopyContent` (stack.c 46-56) into a new, empty stack of capacity
`cap`. The callers ignore the return code, so content that does not fit is lost. -/
def copyContent (cap : Nat) (s : List Nat) : List Nat := if cap < s.length then [] else s

/-- "Expand theStack", graphUtils.c 439-459. -/
def growStack (g : Graph) (req : Nat) (ok : Bool) : Option Graph :=
  if g.stackCap < 2 * req then
    if ok then
      some { g with stackCap := max (2 * req) (6 * g.N)
                    stack := copyContent (max (2 * req) (6 * g.N)) g.stack }
    else none
  else some g

/-- `_EnsureArcCapacity`, graphUtils.c 427-480. Simplification: the int products `2 * required`
and the byte counts are unbounded here. -/
def ensureBase (g : Graph) (req : Nat) (a : Allocs) : Grown :=
  if 2 + req ≤ g.eSize then ⟨g, false, .ok⟩
  else
    match g.growStack req a.stack with
    | none => ⟨g, false, .notok⟩
    | some g1 =>
      if !a.holes then ⟨g1, false, .notok⟩
      else
        let g2 := { g1 with holes := copyContent (req / 2) g1.holes, holesCap := req / 2 }
        if !a.edges then ⟨g2, true, .notok⟩
        else
          ⟨{ g2 with E := fun e => if g.eSize ≤ e ∧ e < 2 + req then {} else g2.E e
                     arcCap := req }, false, .ok⟩

/-- `gp_EnsureArcCapacity`, graphUtils.c 398-425, for an initialised graph (the branch for
`N == 0` is part of the memory model). -/
def ensureArcCapacity (g : Graph) (req : Int) (a : Allocs) : Grown :=
  if req ≤ 0 then ⟨g, false, .notok⟩
  else if req % 2 ≠ 0 then ⟨g, false, .notok⟩
  else if (g.arcCap : Int) ≥ req then ⟨g, false, .ok⟩
  else g.ensureBase req.toNat a

/-- `gp_GetArcCapacity`, graphUtils.c 342-345: the arc capacity less the first edge index. -/
def getArcCapacity (g : Graph) : Int := (g.arcCap : Int) - 2

/-- The capacity `gp_DynamicAddEdge` asks for (graphUtils.c 1676-1678). -/
def dynamicCapacity (g : Graph) : Int :=
  let candidate := g.getArcCapacity * 2
  let all : Int := (g.N : Int) * ((g.N : Int) - 1)
  if candidate > all then all else candidate

/-- `gp_DynamicAddEdge`, graphUtils.c 1664-1688. After a failed reallocation of `E` the function
returns before it touches the graph again. -/
def dynamicAddEdge (g : Graph) (u : Int) (ulink : Nat) (v : Int) (vlink : Nat) (a : Allocs) :
    Option (Graph × Res) :=
  if !(g.vertexOk u && g.vertexOk v) then some (g, .notok)
  else do
    let (g, r) ← g.addEdge u ulink v vlink
    if r = .nonembeddable then
      let k := g.ensureArcCapacity g.dynamicCapacity a
      if k.res ≠ .ok then return (k.g, k.res)
      k.g.addEdge u ulink v vlink
    else return (g, r)

/-- `_ReinitializeGraph`, graphUtils.c 331-345: counters and flags reset, the vertex and edge
arrays cleared over their allocated length, both stacks emptied. -/
def reinit (g : Graph) : Graph :=
  { g with
    M := 0, flags := 0
    V := fun v => if v < g.vSize then {} else g.V v
    E := fun e => if e < g.eSize then {} else g.E e
    stack := [], holes := [] }

/-- `sp_Copy` (stack.c 73-93): the content of `src`; if it does not fit, the destination takes
over a duplicate with the capacity of the source. -/
def spCopy (dstCap srcCap : Nat) (src : List Nat) : List Nat × Nat :=
  (src, if dstCap < src.length then srcCap else dstCap)

/-- The copying part of `gp_CopyGraph` (graphUtils.c 978-1021), restricted to the edge store.
Vertex records 1..2N and edge records 2..Esize(src)-1 are copied; records of a larger destination
beyond that are left as they are. -/
def copyInto (d src : Graph) : Graph :=
  { d with
    V := fun v => if 1 ≤ v ∧ v < src.vSize then src.V v else d.V v
    E := fun e => if 2 ≤ e ∧ e < src.eSize then src.E e else d.E e
    N := src.N, M := src.M, flags := src.flags
    stack := (spCopy d.stackCap src.stackCap src.stack).1
    stackCap := (spCopy d.stackCap src.stackCap src.stack).2
    holes := (spCopy d.holesCap src.holesCap src.holes).1
    holesCap := (spCopy d.holesCap src.holesCap src.holes).2 }

/-- `gp_CopyGraph`, graphUtils.c 954-1037, for graphs without extensions; allocations succeed. -/
def copyGraph (dst src : Graph) : Graph × Res :=
  if dst.N ≠ src.N ∨ dst.N = 0 then (dst, .notok)
  else
    let k := dst.ensureArcCapacity src.arcCap {}
    if k.res ≠ .ok then (k.g, .notok) else (k.g.copyInto src, .ok)

/-- `gp_DupGraph`, graphUtils.c 1043-1059 (allocations succeed): a new graph with the default
capacity, then gp_CopyGraph. -/
def dupGraph (g : Graph) : Graph × Res := copyGraph (Graph.init g.N (6 * g.N)) g

/-- The copying part of `gp_CopyAdjacencyLists` (graphUtils.c 922-940): list heads of the primary
vertices, links and neighbours of the occupied edge records, edge count and free slots; flags are
not copied. -/
def copyLists (d src : Graph) : Graph :=
  { d with
    V := fun v => if 1 ≤ v ∧ v ≤ src.N then
        { d.V v with first := (src.V v).first, last := (src.V v).last } else d.V v
    E := fun e => if 2 ≤ e ∧ e < src.inUse then
        { d.E e with nbr := (src.E e).nbr, next := (src.E e).next, prev := (src.E e).prev }
        else d.E e
    M := src.M
    holes := (spCopy d.holesCap src.holesCap src.holes).1
    holesCap := (spCopy d.holesCap src.holesCap src.holes).2 }

/-- `gp_CopyAdjacencyLists`, graphUtils.c 909-942; allocations succeed. -/
def copyAdjacencyLists (dst src : Graph) : Graph × Res :=
  if dst.N ≠ src.N ∨ dst.N = 0 then (dst, .notok)
  else
    let k := dst.ensureArcCapacity src.arcCap {}
    if k.res ≠ .ok then (k.g, .notok) else (k.g.copyLists src, .ok)

end Graph
end Verif
