import Verif.Graph.History
import Verif.Graph.Query

/-
Specification vocabulary for the edge store (C01-C08). Nothing here refers to how records are
linked: only the calls (`Op`), their results (`Out`) and what a user's loop over an adjacency
list meets (`Graph.walk`).
-/
namespace Verif.Props
open Verif Verif.Graph

/-- Abstract multigraph: `(x, u, v)` is an edge between `u` and `v`; its half in `u`'s list is
called `x` and its half in `v`'s list is called `x ^^^ 1`. -/
abbrev Table := List (Nat × Nat × Nat)

/-- What each call does to the abstract multigraph. A new edge gets a name not in use. -/
inductive SpecStep : Table → Op → Out → Table → Prop where
  | addOk {T x u ul v vl} : (∀ t ∈ T, t.1 / 2 ≠ x / 2) →
      SpecStep T (.add u ul v vl) (.code .ok) ((x, u.toNat, v.toNat) :: T)
  | addFail {T u ul v vl r} : r ≠ Res.ok → SpecStep T (.add u ul v vl) (.code r) T
  | insOk {T x u eu eul v ev evl} : (∀ t ∈ T, t.1 / 2 ≠ x / 2) →
      SpecStep T (.insert u eu eul v ev evl) (.code .ok) ((x, u.toNat, v.toNat) :: T)
  | insFail {T u eu eul v ev evl r} : r ≠ Res.ok →
      SpecStep T (.insert u eu eul v ev evl) (.code r) T
  | del {T e nl a} : SpecStep T (.delete e nl) (.arc a) (T.filter (fun t => t.1 / 2 ≠ e / 2))
  | dir {T e d} : SpecStep T (.direct e d) (.code .ok) T

/-- The adjacency lists of `g` are exactly the halves of the edges of `T`. -/
def Matches (g : Graph) (T : Table) : Prop :=
  (∀ v, 1 ≤ v → v ≤ g.N + g.N → ∃ L, g.walk false v = some L ∧ g.walk true v = some L.reverse ∧
    L.Nodup ∧ ∀ e, e ∈ L ↔
      ∃ x a b, (x, a, b) ∈ T ∧ ((e = x ∧ v = a) ∨ (e = x ^^^ 1 ∧ v = b))) ∧
  (∀ x a b, (x, a, b) ∈ T → g.getNbr x = some b ∧ g.getNbr (x ^^^ 1) = some a ∧
    1 ≤ a ∧ a ≤ g.N + g.N ∧ 1 ≤ b ∧ b ≤ g.N + g.N)

/-- The abstract run. -/
inductive SpecRun : Table → List Op → List Out → Table → Prop where
  | nil {T} : SpecRun T [] [] T
  | cons {T op o T' ops os T''} : SpecStep T op o T' → SpecRun T' ops os T'' →
      SpecRun T (op :: ops) (o :: os) T''

/-- `Placed a l x L L'`: `L'` is `L` with `x` put right after (`l = 0`) or right before (`l = 1`)
the arc `a`, or, if `a` is NIL (0), at the front (`l = 0`) or the back (`l = 1`). -/
inductive Placed : Nat → Nat → Nat → List Nat → List Nat → Prop where
  | front {x L} : Placed 0 0 x L (x :: L)
  | back {x L} : Placed 0 1 x L (L ++ [x])
  | after {a x A B} : a ≠ 0 → Placed a 0 x (A ++ a :: B) (A ++ a :: x :: B)
  | before {a x A B} : a ≠ 0 → Placed a 1 x (A ++ a :: B) (A ++ x :: a :: B)

/-- `w` is a vertex (primary or virtual) of `g`. -/
def IsVertex (g : Graph) (w : Nat) : Prop := 1 ≤ w ∧ w ≤ g.N + g.N

/-- Walking the list of `w` forwards meets `L`, walking backwards meets its reversal. -/
def HasList (g : Graph) (w : Nat) (L : List Nat) : Prop :=
  g.walk false w = some L ∧ g.walk true w = some L.reverse

/-- `e` is met when walking some vertex's list. -/
def Live (g : Graph) (e : Nat) : Prop := ∃ w, g.ArcAt w e

/-- Slot `e` is free: its pair is remembered as a hole, or lies beyond the occupied bound. -/
def Free (g : Graph) (e : Nat) : Prop := e ∈ g.holes ∨ e ^^^ 1 ∈ g.holes ∨ g.inUse ≤ e

/-- `g'` is `g` with one new edge: arc `x` (towards `v`) placed in the list of `u` relative to
`a` by `l`, then arc `x ^^^ 1` (towards `u`) placed in the list of `v` relative to `b` by `m`;
everything else is as before. -/
structure EdgePlaced (g g' : Graph) (x u a l v b m : Nat) : Prop where
  fresh : ¬ Live g x ∧ ¬ Live g (x ^^^ 1) ∧ Free g x
  lists : ∀ w, IsVertex g w → ∃ L L1 L2, HasList g w L ∧
    (if w = u then Placed a l x L L1 else L1 = L) ∧
    (if w = v then Placed b m (x ^^^ 1) L1 L2 else L2 = L1) ∧ HasList g' w L2
  ends : g'.getNbr x = some v ∧ g'.getNbr (x ^^^ 1) = some u
  clean : g'.getDirection x = some 0 ∧ g'.getDirection (x ^^^ 1) = some 0
  others : ∀ e, Live g e → g'.getNbr e = g.getNbr e
  sameFlags : ∀ e, (g'.E e).flags = (g.E e).flags
  count : g'.M = g.M + 1 ∧ g'.N = g.N ∧ g'.arcCap = g.arcCap ∧ g'.flags = g.flags ∧
    g'.stack = g.stack ∧ ∀ w, (g'.V w).index = (g.V w).index ∧ (g'.V w).flags = (g.V w).flags

/-- The direction `gp_SetDirection` gives to the twin arc: in and out swapped. -/
def opposite (d : Nat) : Nat := if d = 32 then 64 else if d = 64 then 32 else d

end Verif.Props
