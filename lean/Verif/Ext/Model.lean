import Mathlib.Logic.Function.Basic
import Verif.Graph.Model

/-
Model of the extension system (extensionSystem/graphExtensions.c).

The linked list of extension records of a graph is a list (the records are private to the graph, allocated
and freed together with their list entry). The contexts live in a heap, since a record of a copied graph
points into the context of another graph. Each context holds the function table of its extension
(`functions = &context->functions` in all gp_Attach functions, e.g. graphK23Search_Extensions.c 77-79).
`none` is undefined behaviour: use of a freed context, or calling a NULL function pointer.
-/
namespace Verif
namespace Ext

/-- Number of entries of the function table, graphFunctionTable.h 22-58. -/
def numFunctions : Nat := 24

/-- Function pointers: the core function of table entry `k` (_InitFunctionTable, graphUtils.c 132-161) or the
overload that module `m` provides for it. -/
inductive Fn
  | core (k : Nat)
  | over (m k : Nat)
  deriving DecidableEq, Repr

/-- A function table; `none` is NULL. -/
abbrev Table := Nat → Option Fn

/-- `graphExtension`, graphExtensions.private.h 16-26. `tbl` is the context in which the table `functions`
points. -/
structure Rec where
  id : Nat
  ctx : Nat
  tbl : Nat
  deriving DecidableEq, Repr

/-- The part of a graph that belongs to the extension system. -/
structure XGraph where
  exts : List Rec := []
  funs : Table := fun k => some (.core k)

/-- All graphs, the contexts, the variable `moduleIDGenerator` (graphExtensions.c 36) and the module identifier
variables (such as K23SEARCH_ID). -/
structure Sys where
  graphs : Nat → XGraph := fun _ => {}
  heap : Nat → Option Table := fun _ => none
  gen : Nat := 0
  ids : Nat → Nat := fun _ => 0

namespace Sys

def setGraph (s : Sys) (g : Nat) (x : XGraph) : Sys := { s with graphs := Function.update s.graphs g x }
def setHeap (s : Sys) (c : Nat) (t : Option Table) : Sys := { s with heap := Function.update s.heap c t }

/-- The search of gp_FindExtension, graphExtensions.c 309-323. -/
def findRec (id : Nat) : List Rec → Option Rec
  | [] => none
  | r :: rs => if r.id = id then some r else findRec id rs

/-- `gp_FindExtension`, graphExtensions.c 295-326: the context if found. -/
def find (s : Sys) (g id : Nat) : Option Nat := if id = 0 then none else (findRec id (s.graphs g).exts).map Rec.ctx

/-- One entry of `_OverloadFunctions`: exchange the pointers if the new one is not NULL, graphExtensions.c 272-277. -/
def exchange (p : Table × Table) (k : Nat) : Table × Table :=
  match p.2 k with
  | some f => (Function.update p.1 k (some f), Function.update p.2 k (p.1 k))
  | none => p

/-- `_OverloadFunctions`, graphExtensions.c 263-279: the graph's table and the extension's table. -/
def overload (graph ext : Table) : Table × Table := (List.range numFunctions).foldl exchange (graph, ext)

/-- Prepend a record and exchange functions, graphExtensions.c 230-241. -/
def insert (s : Sys) (g m c : Nat) : Option (Sys × Res) := do
  let t ← s.heap c
  let x := s.graphs g
  let p := overload x.funs t
  return ((s.setHeap c (some p.2)).setGraph g { exts := ⟨s.ids m, c, c⟩ :: x.exts, funs := p.1 }, .ok)

/-- Give the module an identifier if it has none, graphExtensions.c 219-222. -/
def assign (s : Sys) (m : Nat) : Sys :=
  if s.ids m = 0 then { s with gen := s.gen + 1, ids := Function.update s.ids m (s.gen + 1) } else s

/-- `gp_AddExtension`, graphExtensions.c 196-245, for the module `m` with the context `c`; `ok` tells whether the
allocation of the record succeeds. -/
def addExtension (s : Sys) (g m c : Nat) (ok : Bool) : Option (Sys × Res) :=
  if (s.find g (s.ids m)).isSome then some (s, .notok)
  else if ok then (s.assign m).insert g m c
  else some (s.assign m, .notok)

/-- The part of a gp_Attach function around it, e.g. graphK23Search_Extensions.c 58-85: allocate the context with the table of the
module's own functions, and free it if the extension could not be added. -/
def attach (s : Sys) (g m c : Nat) (S : List Nat) (ok : Bool) : Option (Sys × Res) := do
  let t : Table := fun k => if k ∈ S then some (.over m k) else none
  let (s, r) ← (s.setHeap c (some t)).addExtension g m c ok
  if r = .ok then return (s, r) else return (s.setHeap c none, r)

/-- `_FindNearestOverload`, graphExtensions.c 447-463: the last record before `target` whose table has an entry
`k`. -/
def nearest (s : Sys) (target : Rec) (k : Nat) : List Rec → Option Rec → Option (Option Rec)
  | [], _ => none
  | r :: rs, found =>
    if r = target then some found
    else do
      let t ← s.heap r.tbl
      nearest s target k rs (if (t k).isSome then some r else found)

/-- Write entry `k` of the table of `pred`, or of the graph, graphExtensions.c 432-438. -/
def setEntry (s : Sys) (g k : Nat) (pred : Option Rec) (f : Fn) : Option Sys :=
  match pred with
  | some r => do
    let t ← s.heap r.tbl
    return s.setHeap r.tbl (some (Function.update t k (some f)))
  | none => some (s.setGraph g { (s.graphs g) with funs := Function.update (s.graphs g).funs k (some f) })

/-- One entry of `_FixupFunctionTables`, graphExtensions.c 430-439. -/
def fixup (g : Nat) (curr : Rec) (s : Sys) (k : Nat) : Option Sys := do
  let t ← s.heap curr.tbl
  match t k with
  | some f => do
    let pred ← s.nearest curr k (s.graphs g).exts none
    s.setEntry g k pred f
  | none => some s

/-- `_FreeExtension`, graphExtensions.c 538-545 (with a freeContext function that frees the context). Freeing a
context that is not allocated is undefined. -/
def freeExt (s : Sys) (r : Rec) : Option Sys := do
  let _ ← s.heap r.ctx
  return s.setHeap r.ctx none

/-- Unhook and free, graphExtensions.c 390-397. -/
def unhook (s : Sys) (g : Nat) (curr : Rec) : Option Sys :=
  (s.setGraph g { (s.graphs g) with exts := (s.graphs g).exts.erase curr }).freeExt curr

/-- `gp_RemoveExtension`, graphExtensions.c 362-401. -/
def removeExtension (s : Sys) (g id : Nat) : Option (Sys × Res) :=
  if id = 0 then some (s, .notok)
  else
    match findRec id (s.graphs g).exts with
    | none => some (s, .ok)
    | some curr => do
      let s ← (List.range numFunctions).foldlM (fixup g curr) s
      let s ← s.unhook g curr
      return (s, .ok)

/-- `gp_FreeExtensions`, graphExtensions.c 516-533. -/
def freeExtensions (s : Sys) (g : Nat) : Option Sys := do
  let s ← (s.graphs g).exts.foldlM freeExt s
  return s.setGraph g {}

/-- The loop of `gp_CopyExtensions`, graphExtensions.c 480-502, over the remaining records; `addrs` are the addresses of
the new contexts and `fail` tells at which record the allocation fails. dupContext is assumed to succeed; it makes a copy of the
context, including the table in it. The new record shares `functions` with the old one. -/
def copyLoop (s : Sys) (d : Nat) : List Rec → List Nat → Option Nat → Option (Sys × Res)
  | [], _, _ => some (s, .ok)
  | _ :: _, _, some 0 => do return (← s.freeExtensions d, .notok)
  | _ :: _, [], _ => none
  | r :: rs, a :: as, fail => do
    let t ← s.heap r.ctx
    let s := (s.setHeap a (some t)).setGraph d
      { (s.graphs d) with exts := (s.graphs d).exts ++ [⟨r.id, a, r.tbl⟩] }
    copyLoop s d rs as (fail.map (· - 1))

/-- `gp_CopyExtensions`, graphExtensions.c 469-505, followed by the assignment of the function table in
gp_CopyGraph, graphUtils.c 1019-1034. -/
def copyExtensions (s : Sys) (d src : Nat) (addrs : List Nat) (fail : Option Nat) : Option (Sys × Res) := do
  let s ← s.freeExtensions d
  let (s, r) ← s.copyLoop d (s.graphs src).exts addrs fail
  if r = .ok then return (s.setGraph d { (s.graphs d) with funs := (s.graphs src).funs }, r) else return (s, r)

/-- Calling table entry `k` of a graph through the function pointer `f`. An overload looks up its own
context by gp_FindExtension and calls the function that it finds in the context's table
(e.g. graphK23Search_Extensions.c 146-153). -/
def follow (s : Sys) (g : Nat) : Nat → Fn → Option (List Fn)
  | _, .core k => some [.core k]
  | 0, .over _ _ => none
  | fuel + 1, .over m k => do
    let c ← s.find g (s.ids m)
    let t ← s.heap c
    let f ← t k
    let l ← follow s g fuel f
    return .over m k :: l

/-- The functions run by a call through entry `k` of the graph's table. -/
def calls (s : Sys) (g k : Nat) : Option (List Fn) := do
  let f ← (s.graphs g).funs k
  s.follow g ((s.graphs g).exts.length + 1) f

end Sys

/-- Operations on a set of graphs. -/
inductive Op
  | attach (g m c : Nat) (S : List Nat) (ok : Bool)
  | remove (g m : Nat)
  | free (g : Nat)
  | copy (d src : Nat) (addrs : List Nat) (fail : Option Nat)

/-- One operation. -/
def Sys.step (s : Sys) : Op → Option (Sys × Res)
  | .attach g m c S ok => s.attach g m c S ok
  | .remove g m => s.removeExtension g (s.ids m)
  | .free g => do return (← s.freeExtensions g, .ok)
  | .copy d src addrs fail => s.copyExtensions d src addrs fail

/-- What the caller and malloc guarantee: contexts have addresses that are not in use, tables have the right length,
a graph is not copied onto itself. -/
def Sys.Valid (s : Sys) : Op → Prop
  | .attach _ _ c S _ => s.heap c = none ∧ ∀ k ∈ S, k < numFunctions
  | .remove _ _ => True
  | .free _ => True
  | .copy d src addrs _ => d ≠ src ∧ addrs.Nodup ∧ (∀ a ∈ addrs, s.heap a = none) ∧ addrs.length = (s.graphs src).exts.length

/-- A sequence of operations. -/
def Sys.run (s : Sys) : List Op → Option (Sys × List Res)
  | [] => some (s, [])
  | op :: ops => do
    let (s, r) ← s.step op
    let (s, rs) ← s.run ops
    return (s, r :: rs)

/-- Every operation is valid when it is made. -/
def Sys.ValidRun (s : Sys) : List Op → Prop
  | [] => True
  | op :: ops => s.Valid op ∧ ∀ s' r, s.step op = some (s', r) → s'.ValidRun ops

end Ext
end Verif
