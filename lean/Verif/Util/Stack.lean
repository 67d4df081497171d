/-
Model of the integer stack (lowLevelUtils/stack.c, stack.h, SPEED_MACROS version).
-/
namespace Verif
namespace Stk

/-- `stack` (stack.h 17-21): array `S` of `cap` cells, of which `size` are in use. -/
structure Stack where
  S : Nat → Int
  size : Nat
  cap : Nat

/-- `sp_New` (stack.c 11-34), allocation succeeding; the cells hold arbitrary values. -/
def new (junk : Nat → Int) (cap : Nat) : Stack := ⟨junk, 0, cap⟩

/-- `sp_Push` (stack.h 78): no check in the macro version; writing beyond the array is
undefined. -/
def push (s : Stack) (a : Int) : Option Stack :=
  if s.size < s.cap then
    some { s with S := fun i => if i = s.size then a else s.S i, size := s.size + 1 }
  else none

/-- `sp_Push2` (stack.h 79). -/
def push2 (s : Stack) (a b : Int) : Option Stack := do push (← push s a) b

/-- `sp_Pop` (stack.h 81): reading `S[-1]` is undefined. -/
def pop (s : Stack) : Option (Int × Stack) :=
  if s.size = 0 then none else some (s.S (s.size - 1), { s with size := s.size - 1 })

/-- `sp_Pop_Discard` (stack.h 82). Decrementing an empty stack leaves a negative size, which no
later operation tolerates: undefined here. -/
def popDiscard (s : Stack) : Option Stack :=
  if s.size = 0 then none else some { s with size := s.size - 1 }

/-- `sp_Pop2` (stack.h 84): `b` first, then `a`. -/
def pop2 (s : Stack) : Option ((Int × Int) × Stack) := do
  let (b, s) ← pop s
  let (a, s) ← pop s
  return ((a, b), s)

/-- `sp_Pop2_Discard1` (stack.h 85). -/
def pop2Discard1 (s : Stack) : Option (Int × Stack) := do pop (← popDiscard s)

/-- `sp_Pop2_Discard` (stack.h 86). -/
def pop2Discard (s : Stack) : Option Stack := do popDiscard (← popDiscard s)

/-- `sp_Top` (stack.h 88): NIL (0) for an empty stack. -/
def top (s : Stack) : Int := if s.size ≠ 0 then s.S (s.size - 1) else 0

/-- `sp_Get` (stack.h 89). -/
def get (s : Stack) (i : Nat) : Option Int := if i < s.cap then some (s.S i) else none
/-- `sp_Set` (stack.h 90). -/
def set (s : Stack) (i : Nat) (a : Int) : Option Stack :=
  if i < s.cap then some { s with S := fun j => if j = i then a else s.S j } else none

/-- `sp_ClearStack` (stack.h 71). -/
def clear (s : Stack) : Stack := { s with size := 0 }

/-- `sp_SetCurrentSize` (stack.h 73); the Boolean is the return code. -/
def setSize (s : Stack) (n : Nat) : Stack × Bool :=
  if n > s.cap then (s, false) else ({ s with size := n }, true)

/-- `memcpy(dst, src, n*sizeof(int))`. -/
def memcpy (dst src : Nat → Int) (n : Nat) : Nat → Int := fun i => if i < n then src i else dst i

/-- `sp_CopyContent` (stack.c 50-60). -/
def copyContent (d s : Stack) : Stack × Bool :=
  if d.cap < s.size then (d, false)
  else ({ d with S := if s.size > 0 then memcpy d.S s.S s.size else d.S, size := s.size }, true)

/-- `sp_Duplicate` (stack.c 62-76), allocation succeeding. -/
def duplicate (junk : Nat → Int) (s : Stack) : Stack :=
  let n := new junk s.cap
  if s.size > 0 then { n with S := memcpy n.S s.S s.size, size := s.size } else n

/-- `sp_Copy` (stack.c 78-98), allocation succeeding: if the content does not fit, the destination
takes the array of a duplicate. -/
def copy (junk : Nat → Int) (d s : Stack) : Stack :=
  match copyContent d s with
  | (d', true) => d'
  | (_, false) => { S := (duplicate junk s).S, size := s.size, cap := s.cap }

/-- The checked functions of the build without SPEED_MACROS (stack.c 127-153):
`none` = NOTOK, the stack is unchanged. -/
def pushChecked (s : Stack) (a : Int) : Option Stack :=
  if s.size ≥ s.cap then none
  else some { s with S := fun i => if i = s.size then a else s.S i, size := s.size + 1 }
/-- `sp__Push2`, stack.c 136-144. -/
def push2Checked (s : Stack) (a b : Int) : Option Stack :=
  if s.size + 1 ≥ s.cap then none
  else
    let s := { s with S := fun i => if i = s.size then a else s.S i, size := s.size + 1 }
    some { s with S := fun i => if i = s.size then b else s.S i, size := s.size + 1 }
/-- `sp__Pop`, stack.c 146-153. -/
def popChecked (s : Stack) : Option (Int × Stack) :=
  if s.size ≤ 0 then none else some (s.S (s.size - 1), { s with size := s.size - 1 })
/-- `sp__Pop2`, stack.c 164-173. -/
def pop2Checked (s : Stack) : Option ((Int × Int) × Stack) :=
  if s.size ≤ 1 then none
  else some ((s.S (s.size - 2), s.S (s.size - 1)), { s with size := s.size - 2 })

/-- Operations of a stack user. -/
inductive Op
  | push (a : Int) | push2 (a b : Int) | pop | popDiscard | pop2 | pop2Discard1 | pop2Discard
  | top | get (i : Nat) | set (i : Nat) (a : Int) | clear | setSize (n : Nat) | size
  deriving DecidableEq, Repr

/-- One operation with the values it returns. -/
def step (s : Stack) : Op → Option (Stack × List Int)
  | .push a => do return (← push s a, [])
  | .push2 a b => do return (← push2 s a b, [])
  | .pop => do let (a, s) ← pop s; return (s, [a])
  | .popDiscard => do return (← popDiscard s, [])
  | .pop2 => do let ((a, b), s) ← pop2 s; return (s, [a, b])
  | .pop2Discard1 => do let (a, s) ← pop2Discard1 s; return (s, [a])
  | .pop2Discard => do return (← pop2Discard s, [])
  | .top => some (s, [top s])
  | .get i => do return (s, [← get s i])
  | .set i a => do return (← set s i a, [])
  | .clear => some (clear s, [])
  | .setSize n => let (s, r) := setSize s n; some (s, [if r then 1 else 0])
  | .size => some (s, [s.size])

/-- A history of operations. -/
def run (s : Stack) : List Op → Option (Stack × List (List Int))
  | [] => some (s, [])
  | o :: os => do
    let (s, r) ← step s o
    let (s, rs) ← run s os
    return (s, r :: rs)

end Stk
end Verif
