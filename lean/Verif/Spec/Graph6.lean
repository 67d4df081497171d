import Verif.Spec.Adjacency

/-
The graph6 text format as published by its author (formats.txt): the order `N(n)`, then the upper
triangle of the adjacency matrix column by column as `R(x)`: padded on the right with zeros to a
multiple of six, cut into groups of six bits, each group as a big-endian number plus 63.
-/
namespace Verif.Props
open Verif Verif.Graph

/-- Order of the graph: one character up to 62, else `~` and three characters of six bits. -/
def orderText (n : Nat) : List Nat :=
  if n ≤ 62 then [n + 63] else [126, n / 4096 % 64 + 63, n / 64 % 64 + 63, n % 64 + 63]

/-- The pairs (0,1), (0,2), (1,2), (0,3), … of the upper triangle, column by column. -/
def cells (n : Nat) : List (Nat × Nat) := (List.range n).flatMap fun j => (List.range j).map fun i => (i, j)

/-- The matrix as a bit vector. -/
def triangle (n : Nat) (adj : Nat → Nat → Bool) : List Bool := (cells n).map fun p => adj p.1 p.2

/-- Groups of six bits as characters. -/
def sixes : List Bool → List Nat
  | a :: b :: c :: d :: e :: f :: t =>
    (32 * a.toNat + 16 * b.toNat + 8 * c.toNat + 4 * d.toNat + 2 * e.toNat + f.toNat + 63) :: sixes t
  | _ => []

/-- `R(x)`. -/
def bitText (x : List Bool) : List Nat := sixes (x ++ List.replicate ((6 - x.length % 6) % 6) false)

/-- The graph6 line, without header and line end, of the graph on 0..n-1 with adjacency `adj`. -/
def graph6 (n : Nat) (adj : Nat → Nat → Bool) : List Nat := orderText n ++ bitText (triangle n adj)

/-- `adj` describes the graph `g` (whose vertices are 1..N). -/
def Describes (adj : Nat → Nat → Bool) (g : Graph) : Prop :=
  ∀ i j, i < j → j < g.N → (adj i j = true ↔ Adjacent g (i + 1) (j + 1))

/-- `g` is the simple undirected graph on 1..n whose edges are those of `adj`. -/
structure IsGraph (n : Nat) (adj : Nat → Nat → Bool) (g : Graph) : Prop where
  order : g.N = n
  simple : IsSimple g
  undirected : Undirected g
  edges : Describes adj g

/-- What may follow a graph6 line: the end of the input, a newline, or carriage return and newline;
the second argument is the text of the next line. -/
inductive LineEnd : List Int → List Int → Prop
  | eof : LineEnd [] []
  | lf (t : List Int) : LineEnd (10 :: t) t
  | crlf (t : List Int) : LineEnd (13 :: 10 :: t) t

/-- Lines of graph6 text, each followed by its line end. -/
inductive Lines (n : Nat) : List (Nat → Nat → Bool) → List Int → Prop
  | last (adj) (z : List Int) : LineEnd z [] → Lines n [adj] ((graph6 n adj).map Int.ofNat ++ z)
  | more (adj) (z t : List Int) (adjs) : LineEnd z t → Lines n adjs t →
      Lines n (adj :: adjs) ((graph6 n adj).map Int.ofNat ++ z)

/-- Characters as the reader sees them. -/
def chars (s : List Nat) : List Int := s.map Int.ofNat

example : graph6 5 (fun i j => (i, j) ∈ [(0, 2), (0, 4), (1, 3), (3, 4)]) = [68, 81, 99] := by decide

end Verif.Props
