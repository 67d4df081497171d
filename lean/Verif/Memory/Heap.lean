/-
Heap-level model of creating, initialising, growing and freeing a graph: which blocks are
allocated and which pointer fields hold them (graphUtils.c, stack.c, listcoll.c). Block contents
are not modelled here; extensions are absent.
-/
namespace Verif
namespace Memory

/-- The allocation calls. `brl`, `dfs`: the two list collections; `stk`, `hls`: the two stacks of
`_InitGraph`; `newStk`, `newHls`: the stacks of `_EnsureArcCapacity`. Each of these has a record
(`…Rec`) and an array. -/
inductive Site
  | graphRec | vertices | vertexInfo | edges
  | brlRec | brlArr | dfsRec | dfsArr | stkRec | stkArr | extFace | hlsRec | hlsArr
  | newStkRec | newStkArr | newHlsRec | newHlsArr | edgesRealloc
  deriving DecidableEq, Repr

/-- The heap: identifiers of the live blocks, the next unused identifier, and the number of
allocation calls made so far. -/
structure Heap where
  live : List Nat := []
  next : Nat := 0
  calls : Nat := 0
  deriving DecidableEq, Repr

/-- An allocation fault pattern: does the n-th allocation call, made at `site`, fail? -/
abbrev Faults := Site → Nat → Bool

namespace Heap

/-- `malloc` / `calloc`: NULL (`none`) or a new block. -/
def alloc (f : Faults) (s : Site) (h : Heap) : Option Nat × Heap :=
  if f s h.calls then (none, { h with calls := h.calls + 1 })
  else (some h.next, { live := h.next :: h.live, next := h.next + 1, calls := h.calls + 1 })

/-- `free` of a non-NULL pointer: undefined unless the block is live. -/
def free (h : Heap) (p : Nat) : Option Heap :=
  if p ∈ h.live then some { h with live := h.live.erase p } else none

/-- The pattern `if (p != NULL) free(p)`. -/
def freeOpt (h : Heap) : Option Nat → Option Heap
  | none => some h
  | some p => h.free p

/-- `realloc`: on failure NULL and the old block stays; on success a new block replaces it. -/
def realloc (f : Faults) (s : Site) (h : Heap) (p : Option Nat) : Option (Option Nat × Heap) :=
  match h.alloc f s with
  | (none, h) =>
    match p with
    | none => some (none, h)
    | some q => if q ∈ h.live then some (none, h) else none
  | (some n, h) => (h.freeOpt p).map (some n, ·)

/-- `sp_New` (stack.c 11-34) and `LCNew` (listcoll.c 75-98): a record and an array; the record is
freed if the array cannot be allocated. -/
def newPair (f : Faults) (a b : Site) (h : Heap) : Option (Option (Nat × Nat) × Heap) :=
  match h.alloc f a with
  | (none, h) => some (none, h)
  | (some r, h) =>
    match h.alloc f b with
    | (none, h) => (h.free r).map (none, ·)
    | (some s, h) => some (some (r, s), h)

/-- `sp_Free` (stack.c 36-48) and `LCFree` (listcoll.c 104-114): array, then record. -/
def freePair (h : Heap) : Option (Nat × Nat) → Option Heap
  | none => some h
  | some (r, s) => do (← h.free s).free r

end Heap

/-- The pointer fields and sizes of `baseGraphStructure` that matter here. `self` is the block of
the structure itself. -/
structure GraphRec where
  self : Nat
  vertices : Option Nat := none
  vertexInfo : Option Nat := none
  edges : Option Nat := none
  brl : Option (Nat × Nat) := none
  dfs : Option (Nat × Nat) := none
  stk : Option (Nat × Nat) := none
  extFace : Option Nat := none
  hls : Option (Nat × Nat) := none
  N : Nat := 0
  arcCap : Nat := 0
  stackCap : Nat := 0
  deriving DecidableEq, Repr

/-- Return codes. -/
inductive Code | ok | notok
  deriving DecidableEq, Repr

/-- `_ClearGraph`, graphUtils.c 835-872. Line 845 assigns NULL to `V` instead of `VI`, so the
field `VI` keeps the address of the freed block. -/
def clear (h : Heap) (g : GraphRec) : Option (Heap × GraphRec) := do
  let h ← h.freeOpt g.vertices
  let h ← h.freeOpt g.vertexInfo
  let h ← h.freeOpt g.edges
  let h ← h.freePair g.brl
  let h ← h.freePair g.dfs
  let h ← h.freePair g.stk
  let h ← h.freeOpt g.extFace
  let h ← h.freePair g.hls
  return (h, { self := g.self, vertexInfo := g.vertexInfo })

/-- `gp_New`, graphUtils.c 90-116: the structure with all pointers NULL; `_ClearGraph` then has
nothing to free. -/
def gpNew (f : Faults) (h : Heap) : Option (Option GraphRec × Heap) :=
  match h.alloc f .graphRec with
  | (none, h) => some (none, h)
  | (some p, h) => (clear h { self := p }).map fun (h, g) => (some g, h)

/-- The allocation chain of `_InitGraph` (graphUtils.c 220-228): `||` stops at the first NULL; the
pointer field has been assigned by then. The Boolean says whether all succeeded. -/
def initChain (f : Faults) (h : Heap) (g : GraphRec) : Option (Bool × Heap × GraphRec) := do
  let (p, h) := h.alloc f .vertices
  let g := { g with vertices := p }
  if p = none then return (false, h, g)
  let (p, h) := h.alloc f .vertexInfo
  let g := { g with vertexInfo := p }
  if p = none then return (false, h, g)
  let (p, h) := h.alloc f .edges
  let g := { g with edges := p }
  if p = none then return (false, h, g)
  let (p, h) ← h.newPair f .brlRec .brlArr
  let g := { g with brl := p }
  if p = none then return (false, h, g)
  let (p, h) ← h.newPair f .dfsRec .dfsArr
  let g := { g with dfs := p }
  if p = none then return (false, h, g)
  let (p, h) ← h.newPair f .stkRec .stkArr
  let g := { g with stk := p }
  if p = none then return (false, h, g)
  let (p, h) := h.alloc f .extFace
  let g := { g with extFace := p }
  if p = none then return (false, h, g)
  let (p, h) ← h.newPair f .hlsRec .hlsArr
  let g := { g with hls := p }
  if p = none then return (false, h, g)
  return (true, h, g)

/-- Sizes set by `_InitGraph` (graphUtils.c 206-217). -/
def initSizes (g : GraphRec) (N : Nat) : GraphRec :=
  let c := if g.arcCap > 0 then g.arcCap else 6 * N
  { g with N := N, arcCap := c, stackCap := max (2 * (2 + c)) (6 * N) }

/-- `gp_InitGraph` and `_InitGraph`, graphUtils.c 190-241. -/
def gpInit (f : Faults) (h : Heap) (g : GraphRec) (N : Nat) : Option (Heap × GraphRec × Code) :=
  if N = 0 then some (h, g, .notok)
  else if g.N ≠ 0 then some (h, g, .notok)
  else do
    let (ok, h, g) ← initChain f h (initSizes g N)
    if ok then return (h, g, .ok)
    let (h, g) ← clear h g
    return (h, g, .notok)

/-- "Expand theStack" (graphUtils.c 439-459); `sp_CopyContent` and `sp_Free` dereference the old
stack. The Boolean says whether to go on. -/
def growStk (f : Faults) (h : Heap) (g : GraphRec) (req : Nat) : Option (Bool × Heap × GraphRec) :=
  if g.stackCap < 2 * req then do
    let (p, h) ← h.newPair f .newStkRec .newStkArr
    if p = none then return (false, h, g)
    if g.stk = none then none
    let h ← h.freePair g.stk
    return (true, h, { g with stk := p, stackCap := max (2 * req) (6 * g.N) })
  else some (true, h, g)

/-- "Expand edgeHoles" (graphUtils.c 461-469). -/
def growHls (f : Faults) (h : Heap) (g : GraphRec) : Option (Bool × Heap × GraphRec) := do
  let (p, h) ← h.newPair f .newHlsRec .newHlsArr
  if p = none then return (false, h, g)
  if g.hls = none then none
  let h ← h.freePair g.hls
  return (true, h, { g with hls := p })

/-- `gp_EnsureArcCapacity` and `_EnsureArcCapacity`, graphUtils.c 398-481. The result of `realloc`
goes straight into the field `E` (line 472). -/
def gpEnsure (f : Faults) (h : Heap) (g : GraphRec) (req : Int) : Option (Heap × GraphRec × Code) :=
  if req ≤ 0 then some (h, g, .notok)
  else if req % 2 ≠ 0 then some (h, g, .notok)
  else if (g.arcCap : Int) ≥ req then some (h, g, .ok)
  else if g.N = 0 then some (h, { g with arcCap := req.toNat }, .ok)
  else do
    let (ok, h, g) ← growStk f h g req.toNat
    if !ok then return (h, g, .notok)
    let (ok, h, g) ← growHls f h g
    if !ok then return (h, g, .notok)
    let (p, h) ← h.realloc f .edgesRealloc g.edges
    let g := { g with edges := p }
    if p = none then return (h, g, .notok)
    return (h, { g with arcCap := req.toNat }, .ok)

/-- `gp_Free`, graphUtils.c 884-895. -/
def gpFree (h : Heap) (g : GraphRec) : Option Heap := do
  let (h, g) ← clear h g
  h.free g.self

/-- Memory side of `sp_Copy` (stack.c 78-98) with destination `(record, array)`: if the content does
not fit, a duplicate is made (`sp_Duplicate`), the arrays are exchanged and the duplicate's record
is freed together with the old array. -/
def stackCopy (f : Faults) (h : Heap) (d : Nat × Nat) (fits : Bool) :
    Option (Heap × (Nat × Nat) × Code) :=
  if fits then some (h, d, .ok)
  else do
    let (p, h) ← h.newPair f .stkRec .stkArr
    match p with
    | none => return (h, d, .notok)
    | some (r, a) =>
      let h ← h.freePair (some (r, d.2))
      return (h, (d.1, a), .ok)

/-- Calls a user can make on a graph between `gp_New` and `gp_Free`. -/
inductive Call
  | init (N : Nat)
  | ensure (req : Int)
  deriving DecidableEq, Repr

/-- One call. -/
def call (f : Faults) (h : Heap) (g : GraphRec) : Call → Option (Heap × GraphRec × Code)
  | .init N => gpInit f h g N
  | .ensure r => gpEnsure f h g r

/-- A sequence of calls; the return codes are collected. -/
def calls (f : Faults) (h : Heap) (g : GraphRec) : List Call → Option (Heap × GraphRec × List Code)
  | [] => some (h, g, [])
  | c :: cs => do
    let (h, g, r) ← call f h g c
    let (h, g, rs) ← calls f h g cs
    return (h, g, r :: rs)

/-- The life of a graph: `gp_New`, the calls, `gp_Free` (nothing to do if `gp_New` fails). -/
def life (f : Faults) (h : Heap) (cs : List Call) : Option (Heap × List Code) := do
  match ← gpNew f h with
  | (none, h) => return (h, [])
  | (some g, h) =>
    let (h, g, rs) ← calls f h g cs
    return (← gpFree h g, rs)

end Memory
end Verif
