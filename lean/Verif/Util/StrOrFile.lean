import Verif.Util.StrBuf

/-
Model of the string-or-file container (io/strOrFile.c, strOrFile.h). Bytes are natural numbers below 256; `char` is
signed. `none` is undefined behaviour. A string is the list of its allocated bytes; memory is at the C level: strncpy
and the terminator are written into the caller's buffer. A file is the bytes to come and the bytes written; reading and
writing of files do not fail. Allocation succeeds.
-/
namespace Verif
namespace SF

open Verif.SB (cstr poke)

/-- A `FILE *` as seen through getc, ungetc, fgets and fputs. `back`: a character has been pushed back, for a second one
the standard promises nothing. -/
structure File where
  rest : List Nat
  back : Bool
  out : List Nat
  deriving DecidableEq, Repr

/-- `strOrFile`, strOrFile.h 20-27. -/
structure Container where
  file : Option File
  str : Option (List Nat)
  pos : Nat
  deriving DecidableEq, Repr

/-- Conversion to `char`. -/
def chr (b : Nat) : Int := if b < 128 then b else (b : Int) - 256

/-- Conversion of a `char` to the byte stored. -/
def byte (c : Int) : Nat := if c < 0 then (c + 256).toNat else c.toNat

/-- `sf_New`, strOrFile.c 20-39; the inner `none` is NULL. -/
def new (file : Option File) (str : Option (List Nat)) : Option Container :=
  match file, str with
  | some f, none => some ⟨some f, none, 0⟩
  | none, some s => some ⟨none, some s, 0⟩
  | _, _ => none

/-- `sf_getc`, strOrFile.c 47-65; EOF is -1. A container whose string has been taken gives '\0'. -/
def getc (s : Container) : Option (Int × Container) :=
  match s.file with
  | some f =>
    match f.rest with
    | [] => some (-1, s)
    | b :: r => some (chr b, { s with file := some { f with rest := r, back := false } })
  | none =>
    match s.str with
    | none => some (0, s)
    | some m => do
      let b ← m[s.pos]?
      if b = 0 then return (-1, s)
      else return (chr b, { s with pos := s.pos + 1 })

/-- `sf_ungetc`, strOrFile.c 78-98. ungetc of stdio refuses EOF and takes back one character. -/
def ungetc (c : Int) (s : Container) : Option (Int × Container) :=
  match s.file with
  | some f =>
    if c = -1 then some (-1, s)
    else if f.back then none
    else some (chr (byte c), { s with file := some { f with rest := byte c :: f.rest, back := true } })
  | none =>
    match s.str with
    | none => some (-1, s)
    | some m =>
      if s.pos = 0 then some (-1, s)
      else do
        let m ← poke m (s.pos - 1) (byte c)
        return (c, { s with str := some m, pos := s.pos - 1 })

/-- The bytes up to and including the first newline. -/
def throughLF : List Nat → List Nat
  | [] => []
  | b :: l => if b = 10 then [b] else b :: throughLF l

/-- Copy bytes to the start of a buffer. -/
def store (dst w : List Nat) : Option (List Nat) := if w.length ≤ dst.length then some (w ++ dst.drop w.length) else none

/-- `fgets` of stdio: NULL at the end of the file, otherwise at most `count - 1` bytes up to a newline, and a terminator.
For `count` 0 nothing is read and the result is NULL, as in the GNU library. -/
def fileGets (dst : List Nat) (count : Nat) (f : File) : Option (Option (List Nat) × File) :=
  if count = 0 then some (none, f)
  else if f.rest = [] ∧ 2 ≤ count then some (none, f)
  else do
    let l := throughLF (f.rest.take (count - 1))
    let d ← store dst (l ++ [0])
    return (some d, { f with rest := f.rest.drop l.length, back := if l = [] then f.back else false })

/-- `strncpy(dst, src, n)`: the first `n` bytes of the C string, filled up with NULs to `n` bytes. -/
def strncpy (dst src : List Nat) (n : Nat) : Option (List Nat) := do
  let s ← cstr src
  store dst (s.take n ++ List.replicate (n - s.length) 0)

/-- Put a terminator after the first `d` of the C string, if there is one (strchr and `findDelim[1] = '\0'`). -/
def cutAfter (dst : List Nat) (d : Nat) : Option (Option (List Nat)) := do
  let s ← cstr dst
  if d ∈ s then return some (← poke dst (s.idxOf d + 1) 0) else return none

/-- The end of the line, strOrFile.c 127-138. -/
def endLine (d : List Nat) : Option (List Nat) :=
  (cutAfter d 10).bind fun r =>
    match r with
    | some d => some d
    | none => (cutAfter d 13).bind fun r => some (r.getD d)

/-- `sf_fgets`, strOrFile.c 114-145: the caller's buffer `dst` as it is afterwards, or NULL. -/
def fgets (dst : List Nat) (count : Nat) (s : Container) : Option (Option (List Nat) × Container) :=
  match s.file with
  | some f => do
    let (r, f) ← fileGets dst count f
    return (r, { s with file := some f })
  | none =>
    match s.str with
    | none => some (none, s)
    | some m => do
      let b ← m[s.pos]?
      if b = 0 then return (none, s)
      else if count = 0 then none
      else do
        let d ← strncpy dst (m.drop s.pos) count
        let d ← poke d (count - 1) 0
        let d ← endLine d
        let l ← cstr d
        return (some d, { s with pos := s.pos + l.length })

/-- `sf_fputs`, strOrFile.c 158-186: the number of bytes written or EOF. For a file, fputs promises a nonnegative number;
the model gives 1, as the GNU library. `realloc` keeps the old bytes; the new ones hold `junk`. -/
def fputs (junk : Nat → Nat) (w : List Nat) (s : Container) : Option (Int × Container) := do
  let t ← cstr w
  match s.file with
  | some f => return (1, { s with file := some { f with out := f.out ++ t } })
  | none =>
    match s.str with
    | none => return (-1, s)
    | some m => do
      let old ← cstr m
      let n := old.length + t.length + 1
      let m := m.take n ++ (List.range (n - m.length)).map junk
      let cur ← cstr m
      let m ← SB.strcpy m cur.length w
      return ((t.length : Int), { s with str := some m, pos := s.pos + t.length })

/-- `sf_takeTheStr`, strOrFile.c 196-201. -/
def takeTheStr (s : Container) : Option (List Nat) × Container := (s.str, { s with str := none })

end SF
end Verif
