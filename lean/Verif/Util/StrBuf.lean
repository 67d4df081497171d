/-
Model of string buffers (io/strbuf.c, strbuf.h). Bytes are natural numbers; a buffer is the list of
its allocated bytes. Lengths are unbounded (C: int). Bytes above 127 are not distinguished from negative chars (isspace on them is undefined in C).
-/
namespace Verif
namespace SB

/-- `strBuf` (strbuf.h 17-21). `buf` is the allocated array; its length is the allocated size. -/
structure StrBuf where
  buf : List Nat
  size : Nat
  cap : Nat
  readPos : Nat
  deriving DecidableEq, Repr

/-- The C string at the start of an array: the bytes before the first NUL; undefined if there is
none inside the array. -/
def cstr : List Nat → Option (List Nat)
  | [] => none
  | b :: l => if b = 0 then some [] else (cstr l).map (b :: ·)

/-- `strcpy(dst + off, src)`: undefined if `src` is unterminated or the copy with its NUL does not
fit into `dst`. -/
def strcpy (dst : List Nat) (off : Nat) (src : List Nat) : Option (List Nat) :=
  match cstr src with
  | none => none
  | some s =>
    if off + s.length + 1 ≤ dst.length then
      some (dst.take off ++ s ++ [0] ++ dst.drop (off + s.length + 1))
    else none

/-- Assignment to one byte. -/
def poke (l : List Nat) (i b : Nat) : Option (List Nat) :=
  if i < l.length then some (l.set i b) else none

/-- `malloc(n)`: bytes with arbitrary values. -/
def malloc (junk : Nat → Nat) (n : Nat) : List Nat := (List.range n).map junk

/-- `sb_ClearBuf` (strbuf.c 74-82). -/
def clearBuf (b : StrBuf) : Option StrBuf := do
  return { b with buf := ← poke b.buf 0 0, size := 0, readPos := 0 }

/-- `sb_New` (strbuf.c 19-45), allocation succeeding. -/
def new (junk : Nat → Nat) (cap : Nat) : Option StrBuf :=
  clearBuf ⟨malloc junk (cap + 1), 0, cap, 0⟩

/-- The growth part of `sb_ConcatString` (strbuf.c 193-205). -/
def grow (junk : Nat → Nat) (b : StrBuf) (slen : Nat) : Option StrBuf := do
  let newLen := if b.size + slen > 2 * b.cap then b.size + slen else 2 * b.cap
  let nb ← strcpy (malloc junk (newLen + 1)) 0 b.buf
  return { b with buf := nb, cap := newLen }

/-- `sb_ConcatString` (strbuf.c 183-211) of the C string in `s`; `ok` says whether the allocation
succeeds; the Boolean is the return code. -/
def concat (junk : Nat → Nat) (ok : Bool) (b : StrBuf) (s : List Nat) : Option (StrBuf × Bool) :=
  match cstr s with
  | none => none
  | some t =>
    if t.length = 0 then some (b, true)
    else if b.size + t.length > b.cap then
      if !ok then some (b, false)
      else do
        let b ← grow junk b t.length
        let nb ← strcpy b.buf b.size s
        return ({ b with buf := nb, size := b.size + t.length }, true)
    else do
      let nb ← strcpy b.buf b.size s
      return ({ b with buf := nb, size := b.size + t.length }, true)

/-- `sb_ConcatChar` (strbuf.c 219-225). -/
def concatChar (junk : Nat → Nat) (ok : Bool) (b : StrBuf) (c : Nat) : Option (StrBuf × Bool) :=
  concat junk ok b [c, 0]

/-- `sb_TakeString` (strbuf.c 234-247): the old array and the buffer with a new one-byte array. A
failing allocation is dereferenced at once. `readPos` keeps its value. -/
def takeString (ok : Bool) (b : StrBuf) : Option (List Nat × StrBuf) :=
  if ok then some (b.buf, { b with buf := [0], size := 0, cap := 0 }) else none

/-- `sb_Duplicate` (strbuf.c 123-137), allocation succeeding. -/
def duplicate (junk : Nat → Nat) (b : StrBuf) : Option StrBuf := do
  let n ← new junk b.cap
  if b.size > 0 then
    let nb ← strcpy n.buf 0 b.buf
    return { n with buf := nb, size := b.size }
  else return n

/-- `sb_Copy` (strbuf.c 92-113), allocation succeeding. `readPos` of the destination stays. -/
def copy (junk : Nat → Nat) (d s : StrBuf) : Option StrBuf := do
  let n ← duplicate junk s
  return { d with buf := n.buf, size := s.size, cap := s.cap }

/-- `sb_GetReadString` (strbuf.h 35): the C string at the read position; the position may be at
most one past the array for the pointer to exist, and reading needs a terminator inside. -/
def readString (b : StrBuf) : Option (List Nat) :=
  if b.readPos < b.buf.length then cstr (b.buf.drop b.readPos) else none

/-- `isspace` in the C locale. -/
def isSpace (b : Nat) : Bool := b = 32 || (9 ≤ b && b ≤ 13)
/-- `isdigit`. -/
def isDigit (b : Nat) : Bool := 48 ≤ b && b ≤ 57

/-- A skipping loop `while (p(buf[readPos])) readPos++`. -/
def skipWhile (p : Nat → Bool) (buf : List Nat) : Nat → Nat → Option Nat
  | 0, _ => none
  | fuel + 1, pos =>
    match buf[pos]? with
    | none => none
    | some b => if p b then skipWhile p buf fuel (pos + 1) else some pos

/-- `sb_ReadSkipWhitespace` (strbuf.c 145-152). -/
def skipSpace (b : StrBuf) : Option StrBuf := do
  return { b with readPos := ← skipWhile isSpace b.buf (b.buf.length + 1) b.readPos }

/-- `sb_ReadSkipInteger` (strbuf.c 160-170). -/
def skipInteger (b : StrBuf) : Option StrBuf :=
  match b.buf[b.readPos]? with
  | none => none
  | some c => do
    let p := if c = 45 then b.readPos + 1 else b.readPos
    return { b with readPos := ← skipWhile isDigit b.buf (b.buf.length + 1) p }

/-- `sb_ReadSkipChar` (strbuf.h 42): unconditional. -/
def skipChar (b : StrBuf) : StrBuf := { b with readPos := b.readPos + 1 }

/-- A sequence of concatenations, all allocations succeeding. -/
def concats (junk : Nat → Nat) (b : StrBuf) : List (List Nat) → Option StrBuf
  | [] => some b
  | s :: ss => do
    let (b, _) ← concat junk true b s
    concats junk b ss

end SB
end Verif
