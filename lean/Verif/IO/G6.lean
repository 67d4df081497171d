import Verif.Graph.Capacity

/-
Model of the graph6 reader and writer (c/graphLib/io/g6-api-utilities.c, g6-write-iterator.c,
g6-read-iterator.c, strOrFile.c).

Conventions.
* A character read is a C `char`, an `Int` in -128..127; `sf_getc` returns `char`, so end of input
  is -1.
* Input strings and files are lists of characters; a string has no NUL, a file may.
* `none` is undefined behaviour: signed overflow, shift of a negative number, access outside a
  buffer.
* All memory allocations succeed.
-/
namespace Verif
namespace G6

/-! ### Size arithmetic -/

/-- `_getMaxEdgeCount`, g6-api-utilities.c 9-12: the int product must not overflow. The order is
never negative here. -/
def maxEdgeCount (n : Nat) : Option Nat :=
  if n * (n - 1) < 2 ^ 31 then some (n * (n - 1) / 2) else none

/-- `_getNumCharsForGraphEncoding`, g6-api-utilities.c 14-19. -/
def numCharsEnc (n : Nat) : Option Nat := do
  let m ← maxEdgeCount n
  return m / 6 + (if m % 6 ≠ 0 then 1 else 0)

/-- `_getNumCharsForGraphOrder`, g6-api-utilities.c 21-30. -/
def numCharsOrd (n : Nat) : Int :=
  if 0 < n ∧ n < 63 then 1 else if 63 ≤ n ∧ n ≤ 100000 then 4 else -1

/-- `_getExpectedNumPaddingZeroes`, g6-api-utilities.c 32-38. -/
def padding (n numChars : Nat) : Option Nat := do
  let m ← maxEdgeCount n
  if numChars * 6 < 2 ^ 31 then return numChars * 6 - m else none

/-! ### Writer -/

/-- `columnOffsets[i]`, filled by `_precomputeColumnOffsets`, g6-write-iterator.c 237-249. -/
def columnOffset : Nat → Nat
  | 0 => 0
  | 1 => 0
  | i + 2 => columnOffset (i + 1) + (i + 1)

/-- Update one character of the buffer, undefined outside it. -/
def poke (buf : List Nat) (i : Nat) (f : Nat → Nat) : Option (List Nat) :=
  if i < buf.length then some (buf.modify i f) else none

/-- The order bytes, g6-write-iterator.c 317-328. The buffer is zero before, so `+= 63` on a byte
just assigned is one assignment. -/
def putOrder (n : Nat) (buf : List Nat) : Option (List Nat) :=
  if n > 62 then do
    let buf ← poke buf 0 fun _ => 126
    let buf ← poke buf 3 fun _ => ((n >>> 0) &&& 63) + 63
    let buf ← poke buf 2 fun _ => ((n >>> 6) &&& 63) + 63
    poke buf 1 fun _ => ((n >>> 12) &&& 63) + 63
  else if n > 1 then poke buf 0 fun _ => n + 63
  else some buf

/-- `_getNextInUseEdge`, g6-write-iterator.c 415-440: the edge index and its two endpoints, both
NIL at the end. The last argument is the loop fuel. -/
def nextInUse (g : Graph) (e : Nat) : Nat → Option (Nat × Nat × Nat)
  | 0 => none
  | k + 1 =>
    if e < g.inUse then do
      let u ← g.getNbr e
      if u ≠ 0 then return (e, u, ← g.getNbr (twin e))
      else nextInUse g (e + 2) k
    else some (e, 0, 0)

/-- Row and column of an edge: zero-based, smaller end first, g6-write-iterator.c 346-358. -/
def rowCol (u v : Nat) : Nat × Nat := if v - 1 < u - 1 then (v - 1, u - 1) else (u - 1, v - 1)

/-- Set the bit of one edge, g6-write-iterator.c 366-369; `columnOffsets` has `n + 1` entries. -/
def putEdge (n nOrd : Nat) (u v : Nat) (buf : List Nat) : Option (List Nat) :=
  let p := rowCol u v
  if p.2 ≤ n then
    let bit := columnOffset p.2 + p.1
    poke buf (nOrd + bit / 6) fun c => c ||| (1 <<< (5 - bit % 6))
  else none

/-- The edge loop of `_encodeAdjMatAsG6`, g6-write-iterator.c 330-380. -/
def putEdges (g : Graph) (nOrd : Nat) (e : Nat) (buf : List Nat) : Nat → Option (List Nat)
  | 0 => none
  | k + 1 => do
    let (e, u, v) ← nextInUse g e (g.inUse + 1)
    if u ≠ 0 ∧ v ≠ 0 then do
      let buf ← putEdge g.N nOrd u v buf
      putEdges g nOrd (e + 2) buf k
    else some buf

/-- `g6Encoding[i] += 63` for `count` characters from `i`, g6-write-iterator.c 385-386. -/
def add63 (i : Nat) (buf : List Nat) : Nat → Option (List Nat)
  | 0 => some buf
  | k + 1 => do
    let buf ← poke buf i (· + 63)
    add63 (i + 1) buf k

/-- `_encodeAdjMatAsG6`, g6-write-iterator.c 276-389, including the sizes computed by
`_beginG6WriteIteration` 210-226. The buffer has three characters more than the encoding. An order
above 100000 overflows in `numCharsEnc`, so the value -1 of `numCharsOrd` is never used. -/
def encode (g : Graph) : Option (List Nat) := do
  let nOrd := (numCharsOrd g.N).toNat
  let nEnc ← numCharsEnc g.N
  let buf ← putOrder g.N (List.replicate (nOrd + nEnc + 3) 0)
  let buf ← putEdges g nOrd 2 buf (g.inUse + 1)
  add63 nOrd buf nEnc

/-- The characters of ">>graph6<<". -/
def header : List Nat := [62, 62, 103, 114, 97, 112, 104, 54, 60, 60]

/-- `writeGraphUsingG6WriteIterator` with `_printEncodedGraph`, g6-write-iterator.c 251-274 and
442-465: the text appended to the output, and the return code. -/
def writeGraph (g : Graph) : Option (List Nat × Res) := do
  if g.N = 0 then return ([], .notok)
  let buf ← encode g
  let s := buf.takeWhile (· ≠ 0)
  if s.length = 0 then return ([], .notok) else return (s, .ok)

/-- `_WriteGraphToG6String`, g6-write-iterator.c 637-687 (and the file variants 533-635): one
graph after the header. -/
def writeG6 (g : Graph) : Option (List Nat × Res) := do
  let (s, r) ← writeGraph g
  return (header ++ s, r)

/-- A write iterator used for several graphs in turn, stopping at the first failure. The size
fields of the iterator come from the first graph, so this models graphs of equal order. -/
def writeMany : List Graph → Option (List Nat × Res)
  | [] => some ([], .ok)
  | g :: gs => do
    let (s, r) ← writeGraph g
    if r ≠ .ok then return (s, r)
    let (t, r) ← writeMany gs
    return (s ++ t, r)

/-! ### Input container -/

/-- `strOrFile`, strOrFile.h: the characters already read (last first) and those to come. -/
structure Inp where
  file : Bool
  past : List Int
  rest : List Int
  deriving DecidableEq

/-- `sf_getc`, strOrFile.c 47-65. -/
def getc (i : Inp) : Int × Inp :=
  match i.rest with
  | [] => (-1, i)
  | c :: r => (c, { i with past := c :: i.past, rest := r })

/-- `sf_ungetc`, strOrFile.c 78-98. For a file, ungetc refuses EOF and pushes any other character
back; for a string the position moves back and the character there is overwritten. -/
def ungetc (c : Int) (i : Inp) : Int × Inp :=
  if i.file then
    if c = -1 then (-1, i) else (c, { i with past := i.past.tail, rest := c :: i.rest })
  else
    match i.past with
    | [] => (-1, i)
    | _ :: p => (c, { i with past := p, rest := c :: i.rest })

/-- The first part of `s` up to and including the first `d`, and the remainder. -/
def cutAfter (d : Int) : List Int → List Int
  | [] => []
  | c :: s => if c = d then [c] else c :: cutAfter d s

/-- The characters `sf_fgets` takes, strOrFile.c 114-145: at most `count - 1`; both variants stop
after a newline, the string variant also after a carriage return if there is no newline. -/
def lineOf (file : Bool) (count : Nat) (rest : List Int) : List Int :=
  let s := rest.take (count - 1)
  if file then cutAfter 10 s
  else if 10 ∈ s then cutAfter 10 s else cutAfter 13 s

/-- `sf_fgets`: `none` is the NULL result at the end of the input. -/
def fgets (count : Nat) (i : Inp) : Option (List Int) × Inp :=
  if i.rest = [] then (none, i)
  else
    let s := lineOf i.file count i.rest
    (some s, { i with past := s.reverse ++ i.past, rest := i.rest.drop s.length })

/-! ### Reader -/

/-- `_firstCharIsValid`, g6-read-iterator.c 337-351; strchr also finds the terminator. -/
def firstCharOk (c : Int) : Bool := c ≠ 58 && c ≠ 59 && c ≠ 38 && c ≠ 0

/-- Read `n` characters. -/
def getcs (i : Inp) : Nat → List Int × Inp
  | 0 => ([], i)
  | n + 1 =>
    let (c, i) := getc i
    let (s, i) := getcs i n
    (c :: s, i)

/-- `_processAndCheckHeader`, g6-read-iterator.c 298-335. -/
def checkHeader (i : Inp) : Inp × Res :=
  let (s, i) := getcs i 10
  (i, if s = header.map Int.ofNat then .ok else .notok)

/-- Peek at the next character, g6-read-iterator.c 198-212 and 226-233. `none`: the character
could not be put back. -/
def peek (i : Inp) : Option Int × Inp :=
  let (c, i) := getc i
  let (d, i) := ungetc c i
  (if d = c then some c else none, i)

/-- `(c - 63) << s`: undefined for a negative left operand. -/
def shl63 (c : Int) (s : Nat) : Option Nat :=
  if 63 ≤ c then some ((c - 63).toNat <<< s) else none

/-- `_getGraphOrder`, g6-read-iterator.c 353-401; inner `none` is the NOTOK result. -/
def getOrder (i : Inp) : Option (Option Nat × Inp) :=
  let (c, i) := getc i
  if c = 126 then
    let (c, i) := getc i
    if c = 126 then some (none, i)
    else
      let (_, i) := ungetc c i
      let (c1, i) := getc i
      let (c2, i) := getc i
      let (c3, i) := getc i
      do
        let a ← shl63 c1 12
        let b ← shl63 c2 6
        let c ← shl63 c3 0
        let n := a ||| b ||| c
        if n > 100000 then some (none, i) else some (some n, i)
  else if c > 62 ∧ c < 126 then some (some (c - 63).toNat, i)
  else some (none, i)

/-- The graph passed to the reader: created but not initialised (with the arc capacity requested
so far, 0 for none) or initialised. -/
inductive Target
  | fresh (arcCap : Nat)
  | ready (g : Graph)

/-- `FLAGS_ZEROBASEDIO` or-ed into the graph flags (graphStructures.h: 8). -/
def setZeroBased (g : Graph) : Graph := { g with flags := g.flags ||| 8 }

/-- The graph set up for the order found, g6-read-iterator.c 250-281: initialised
(graphUtils.c 203-: NOTOK for order 0, default arc capacity 6 per vertex), or reinitialised if the
order matches; `none` is the NOTOK result. -/
def prepare (n : Nat) : Target → Option Graph
  | .fresh cap => if n = 0 then none else some (setZeroBased (Graph.init n (if cap = 0 then 6 * n else cap)))
  | .ready g => if g.N ≠ n then none else some (setZeroBased g.reinit)

/-- `G6ReadIterator`. `active` is `currGraph != NULL`. -/
structure Iter where
  inp : Inp
  numRead : Nat
  order : Nat
  nOrd : Nat
  nEnc : Nat
  size : Nat
  g : Graph
  active : Bool := true

/-- Skip the header if the text starts with '>', g6-read-iterator.c 198-223. -/
def skipHeader (i : Inp) : Inp × Res :=
  if (getc i).1 = -1 then ((getc i).2, .notok)
  else
    match peek i with
    | (none, i) => (i, .notok)
    | (some c, i) => if c = 62 then checkHeader i else (i, .ok)

/-- The iterator after the order is known, g6-read-iterator.c 250-295; `none` inside is NOTOK. -/
def open' (i : Inp) (n : Nat) (t : Target) : Option (Option Iter) :=
  match prepare n t with
  | none => some none
  | some g => do
    let nOrd := (numCharsOrd n).toNat
    let nEnc ← numCharsEnc n
    some (some { inp := i, numRead := 0, order := n, nOrd, nEnc, size := nOrd + nEnc + 3, g })

/-- `_beginG6ReadIteration`, g6-read-iterator.c 189-296; inner `none` is a NOTOK result. -/
def beginRead (i : Inp) (t : Target) : Option (Option Iter) :=
  match skipHeader i with
  | (i, .ok) =>
    match peek i with
    | (none, _) => some none
    | (some c, i) =>
      if !firstCharOk c then some none
      else do
        match ← getOrder i with
        | (none, _) => some none
        | (some n, i) => open' i n t
  | (_, _) => some none

/-- `_checkGraphOrder`, g6-read-iterator.c 515-556, on the C string `s` (the character after its
end is the terminator). -/
def checkOrder (s : List Int) (n : Nat) : Option Res :=
  let c := s.getD 0 0
  if c = 126 then
    if s.getD 1 0 = 126 then some .notok
    else if s.getD 1 0 > 126 then some .notok
    else do
      let a ← shl63 (s.getD 1 0) 12
      let b ← shl63 (s.getD 2 0) 6
      let c ← shl63 (s.getD 3 0) 0
      some (if (a ||| b ||| c) ≠ n then .notok else .ok)
  else if c > 62 ∧ c < 126 then some (if (c - 63).toNat ≠ n then .notok else .ok)
  else some .notok

/-- The padding loop, g6-read-iterator.c 589-605: the lowest `count` bits of the last byte. -/
def paddingZero (byte count : Nat) : Bool := (List.range count).all fun i => byte &&& (1 <<< i) = 0

/-- `_validateGraphEncoding`, g6-read-iterator.c 558-608, on the string `s` starting at offset
`off` of the buffer. The last byte is read at index -1 if there are no characters: undefined if
the string starts the buffer, otherwise an order byte that is not used as there is no padding. -/
def validate (s : List Int) (off n numChars : Nat) : Option Res := do
  let expected ← numCharsEnc n
  if expected ≠ s.length then some .notok
  else if (s.take numChars).any (fun c => c < 63 || c > 126) then some .notok
  else do
    let pad ← padding n numChars
    if off + numChars = 0 then none
    else some (if paddingZero ((s.getD (numChars - 1) 63) - 63).toNat pad then .ok else .notok)

/-- The six bits of a character, high bit first, g6-read-iterator.c 635-651. -/
def charBits (c : Int) : List Bool :=
  [5, 4, 3, 2, 1, 0].map fun j => (((c - 63).toNat >>> j) &&& 1) = 1

/-- Next row and column, g6-read-iterator.c 645-649. -/
def wrap (row col : Nat) : Nat × Nat := if row = col then (0, col + 1) else (row, col)

/-- The loops of `_decodeGraph`, g6-read-iterator.c 629-662, over all bits of the text. The test
`i == numChars` (642) is never true inside the loop, so padding bits are processed as well. -/
def decodeBits (g : Graph) (row col : Nat) : List Bool → Option (Graph × Res)
  | [] => some (g, .ok)
  | b :: bs =>
    let p := wrap row col
    if b then do
      let (g, r) ← g.dynamicAddEdge ((p.1 + 1 : Nat) : Int) 0 ((p.2 + 1 : Nat) : Int) 0 {}
      if r ≠ .ok then some (g, r) else decodeBits g (p.1 + 1) p.2 bs
    else decodeBits g (p.1 + 1) p.2 bs

/-- `_decodeGraph`, g6-read-iterator.c 617-665. -/
def decode (g : Graph) (s : List Int) : Option (Graph × Res) := decodeBits g 0 1 (s.flatMap charBits)

/-- The line as a C string cut at the first line end, g6-read-iterator.c 452. -/
def cutLine (s : List Int) : List Int := s.takeWhile fun c => c ≠ 0 && c ≠ 10 && c ≠ 13

/-- The graph reinitialised for every graph but the first, g6-read-iterator.c 491-496. -/
def again (first : Bool) (g : Graph) : Graph := if first then g else setZeroBased g.reinit

/-- The order check of every graph but the first, g6-read-iterator.c 464-474. -/
def checkOrder' (first : Bool) (s : List Int) (n : Nat) : Option Res :=
  if first then some .ok else checkOrder s n

/-- One line, g6-read-iterator.c 444-508. -/
def readLine (it : Iter) (s : List Int) : Option (Iter × Res) :=
  let first := it.numRead = 0
  let skip := if first then 0 else it.nOrd
  if !firstCharOk (s.getD 0 0) then some (it, .notok)
  else if (cutLine s).length ≠ skip + it.nEnc then some (it, .notok)
  else do
    let r ← checkOrder' first (cutLine s) it.order
    if r ≠ .ok then return (it, r)
    let r ← validate ((cutLine s).drop skip) skip it.order it.nEnc
    if r ≠ .ok then return (it, r)
    let (g, r) ← decode (again first it.g) ((cutLine s).drop skip)
    if r ≠ .ok then return ({ it with g }, r)
    return ({ it with g, numRead := it.numRead + 1 }, .ok)

/-- `readGraphUsingG6ReadIterator`, g6-read-iterator.c 403-513. -/
def readGraph (it : Iter) : Option (Iter × Res) :=
  if !it.active then some (it, .notok)
  else
    match fgets it.size it.inp with
    | (none, _) => some ({ it with active := false }, .ok)
    | (some s, i) => readLine { it with inp := i } s

/-- The loop of an application over all graphs of the input, planarityTestAllGraphs.c 228-236: read
until a call fails or `currGraph` is NULL. The result has the graph after every successful call;
the last argument is the loop fuel. -/
def readAll (it : Iter) : Nat → Option (List Graph × Res)
  | 0 => none
  | k + 1 => do
    let (it, r) ← readGraph it
    if r ≠ .ok then return ([], r)
    if !it.active then return ([], .ok)
    let (gs, r) ← readAll it k
    return (it.g :: gs, r)

/-- `_ReadGraphFromG6String`, `_ReadGraphFromG6FilePath`, `_ReadGraphFromG6FilePointer`,
g6-read-iterator.c 728-864: the graph afterwards (none if it was left as passed in) and the return
code. The codes of begin and read are overwritten by those of ending and freeing, which are OK. -/
def readG6 (i : Inp) (t : Target) : Option (Option Graph × Res) :=
  if !i.file ∧ i.rest = [] then some (none, .notok)
  else do
    match ← beginRead i t with
    | none => return (none, .ok)
    | some it =>
      let (it, _) ← readGraph it
      return (some it.g, .ok)

end G6
end Verif
