import Verif.Spec.Adjacency

/-
Minors of graphs.
-/
namespace Verif.Props
open Verif Verif.Graph

/-- The vertices of `S` can be reached from each other through adjacent vertices of `S`. -/
inductive Within (g : Graph) (S : Nat → Prop) : Nat → Nat → Prop
  | here (a : Nat) : Within g S a a
  | step {a b c : Nat} : Within g S a b → Adjacent g b c → S c → Within g S a c

/-- Disjoint nonempty connected sets of vertices, numbered from 0 to n - 1, such that for every edge in `E` between two
of the numbers there is an edge of the graph between the two sets. -/
def HasMinor (g : Graph) (n : Nat) (E : List (Nat × Nat)) : Prop :=
  ∃ S : Nat → Nat → Prop, (∀ i, i < n → ∃ a, S i a) ∧ (∀ i j a, i < n → j < n → S i a → S j a → i = j) ∧
    (∀ i a, i < n → S i a → 1 ≤ a ∧ a ≤ g.N) ∧ (∀ i a b, i < n → S i a → S i b → Within g (S i) a b) ∧
    ∀ p ∈ E, ∃ a b, S p.1 a ∧ S p.2 b ∧ Adjacent g a b

end Verif.Props
