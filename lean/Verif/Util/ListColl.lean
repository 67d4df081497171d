/-
Model of list collections (lowLevelUtils/listcoll.c, listcoll.h, SPEED_MACROS version).
-/
namespace Verif
namespace LC

/-- `listCollectionRec` (listcoll.h 17-26): an array of `N` nodes with `prev` and `next`. -/
structure Coll where
  N : Nat
  prev : Nat → Nat
  next : Nat → Nat

/-- `LCNew` (listcoll.c 75-98) with `LCReset` (listcoll.h 52): all pointers NIL. -/
def new (n : Nat) : Coll := ⟨n, fun _ => 0, fun _ => 0⟩

/-- `List[i].prev`, `List[i].next` with the array bound. -/
def rdPrev (c : Coll) (i : Nat) : Option Nat := if i < c.N then some (c.prev i) else none
@[inherit_doc rdPrev]
def rdNext (c : Coll) (i : Nat) : Option Nat := if i < c.N then some (c.next i) else none
/-- Assignment to `List[i].prev`. -/
def wrPrev (c : Coll) (i x : Nat) : Option Coll :=
  if i < c.N then some { c with prev := fun j => if j = i then x else c.prev j } else none
/-- Assignment to `List[i].next`. -/
def wrNext (c : Coll) (i x : Nat) : Option Coll :=
  if i < c.N then some { c with next := fun j => if j = i then x else c.next j } else none

/-- `LCGetNext` (listcoll.h 61). -/
def getNext (c : Coll) (list node : Nat) : Option Nat := do
  let n ← rdNext c node
  if n = list then return 0
  rdNext c node

/-- `LCGetPrev` (listcoll.h 70-73). -/
def getPrev (c : Coll) (list node : Nat) : Option Nat :=
  if node = 0 then rdPrev c list else if node = list then some 0 else rdPrev c node

/-- The first branch of `LCPrepend` and `LCAppend`: a singleton list. -/
def single (c : Coll) (node : Nat) : Option Coll := do
  let c ← wrNext c node node
  wrPrev c node node

/-- The common second branch of `LCPrepend` and `LCAppend` (listcoll.h 82-85, 95-98). -/
def linkBefore (c : Coll) (list node : Nat) : Option Coll := do
  let c ← wrNext c node list
  let c ← wrPrev c node (← rdPrev c list)
  let c ← wrNext c (← rdPrev c node) node
  wrPrev c list node

/-- `LCPrepend` (listcoll.h 79-86); returns the new head. -/
def prepend (c : Coll) (list node : Nat) : Option (Coll × Nat) :=
  if list = 0 then do return (← single c node, node)
  else do
    let c ← linkBefore c list node
    return (c, ← rdPrev c list)

/-- `LCAppend` (listcoll.h 92-99); returns the head. -/
def append (c : Coll) (list node : Nat) : Option (Coll × Nat) :=
  if list = 0 then do return (← single c node, node)
  else do return (← linkBefore c list node, list)

/-- `LCInsertAfter` (listcoll.c 120-126). -/
def insertAfter (c : Coll) (anchor node : Nat) : Option Coll := do
  let c ← wrPrev c node anchor
  let c ← wrNext c node (← rdNext c anchor)
  let c ← wrPrev c (← rdNext c anchor) node
  wrNext c anchor node

/-- `LCInsertBefore` (listcoll.c 132-135). -/
def insertBefore (c : Coll) (anchor node : Nat) : Option Coll := do
  return (← prepend c anchor node).1

/-- The second branch of `LCDelete`: join the neighbours of the node (listcoll.h 111-112). -/
def unlink (c : Coll) (node : Nat) : Option Coll := do
  let c ← wrNext c (← rdPrev c node) (← rdNext c node)
  wrPrev c (← rdNext c node) (← rdPrev c node)

/-- `LCDelete` (listcoll.h 108-113); returns the new head. The pointers of the removed node are
reset only if it was alone. -/
def delete (c : Coll) (list node : Nat) : Option (Coll × Nat) := do
  if (← rdNext c list) = list then
    let c ← wrNext c list 0
    let c ← wrPrev c list 0
    return (c, 0)
  else
    let c ← unlink c node
    let n ← rdNext c node
    return (c, if list = node then n else list)

/-- `LCCopy` (listcoll.h 56): `memcpy` of the source's length; undefined if the destination is
shorter. -/
def copy (dst src : Coll) : Option Coll :=
  if src.N ≤ dst.N then
    some ⟨dst.N, fun i => if i < src.N then src.prev i else dst.prev i,
      fun i => if i < src.N then src.next i else dst.next i⟩
  else none

/-- The forward loop: process the node, then `LCGetNext`, while not NIL. -/
def forward (c : Coll) (list : Nat) : Nat → Nat → Option (List Nat)
  | 0, x => if x = 0 then some [] else none
  | fuel + 1, x =>
    if x = 0 then some []
    else do return x :: (← forward c list fuel (← getNext c list x))

/-- The backward loop: start with `LCGetPrev(list, NIL)`, while not NIL. -/
def backward (c : Coll) (list : Nat) : Nat → Nat → Option (List Nat)
  | 0, x => if x = 0 then some [] else none
  | fuel + 1, x =>
    if x = 0 then some []
    else do return x :: (← backward c list fuel (← getPrev c list x))

/-- What a forward iteration visits. -/
def iterate (c : Coll) (list : Nat) : Option (List Nat) := forward c list c.N list
/-- What a backward iteration visits. For an empty list `LCGetPrev` reads node 0. -/
def iterateBack (c : Coll) (list : Nat) : Option (List Nat) := do
  backward c list c.N (← getPrev c list 0)

/-- Operations of a user holding several list variables (`heads`). -/
inductive Op
  | append (k x : Nat) | prepend (k x : Nat) | insertAfter (a x : Nat) | insertBefore (a x : Nat)
  | delete (k x : Nat)
  deriving DecidableEq, Repr

/-- State: the collection and the user's list variables. -/
structure St where
  coll : Coll
  heads : Nat → Nat

/-- Assign list variable `k`. -/
def setHead (s : St) (k h : Nat) (c : Coll) : St := ⟨c, fun j => if j = k then h else s.heads j⟩

/-- One operation. -/
def step (s : St) : Op → Option St
  | .append k x => do let (c, h) ← append s.coll (s.heads k) x; return setHead s k h c
  | .prepend k x => do let (c, h) ← prepend s.coll (s.heads k) x; return setHead s k h c
  | .insertAfter a x => do return { s with coll := ← insertAfter s.coll a x }
  | .insertBefore a x => do return { s with coll := ← insertBefore s.coll a x }
  | .delete k x => do let (c, h) ← delete s.coll (s.heads k) x; return setHead s k h c

/-- A history. -/
def run (s : St) : List Op → Option St
  | [] => some s
  | o :: os => do run (← step s o) os

end LC
end Verif
