/-
What a reader of a text sees: characters, characters looked at but left there, lines of limited length.
-/
namespace Verif.Props

/-- A byte as a signed character. -/
def signed (b : Nat) : Int := if b < 128 then b else (b : Int) - 256

/-- `l` is what a reader of lines that takes at most `n` bytes takes of the text `t`. -/
structure NextLine (n : Nat) (t l : List Nat) : Prop where
  pre : l <+: t
  len : l.length ≤ n
  inner : 10 ∉ l.dropLast
  full : l = t ∨ l.length = n ∨ l.getLast? = some 10

inductive Ask where
  | char
  | peek
  | line (count : Nat)

inductive Reply where
  | char (c : Int)
  | line (l : List Nat)
  | nothing
  deriving DecidableEq

/-- The replies to a list of questions when `t` is still to be read. -/
inductive Reads : List Nat → List Ask → List Reply → Prop where
  | done (t) : Reads t [] []
  | char {b t as rs} : Reads t as rs → Reads (b :: t) (.char :: as) (.char (signed b) :: rs)
  | charEnd {as rs} : Reads [] as rs → Reads [] (.char :: as) (.char (-1) :: rs)
  | peek {b t as rs} : Reads (b :: t) as rs → Reads (b :: t) (.peek :: as) (.char (signed b) :: rs)
  | peekEnd {as rs} : Reads [] as rs → Reads [] (.peek :: as) (.char (-1) :: rs)
  | line {n t l as rs} : t ≠ [] → NextLine (n - 1) t l → Reads (t.drop l.length) as rs → Reads t (.line n :: as) (.line l :: rs)
  | lineEnd {n as rs} : Reads [] as rs → Reads [] (.line n :: as) (.nothing :: rs)

end Verif.Props
