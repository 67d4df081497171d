import Verif.IO.Leda

/-
C65, C77: graphs in LEDA format.
-/
namespace Verif.Props
open Verif Verif.Graph Verif.Text Verif.SB

/-- C65 `gp_Read` of a LEDA file with `n` nodes and the edges `es` makes the undirected simple graph of that order in which
two vertices are adjacent exactly if they differ and an edge of the file joins them, in one direction or the other. -/
theorem leda_read {n : Nat} {es : List (Nat × Nat)} {s : List Nat} (h : LedaText n es s) (hn : 1 ≤ n) (hn' : n < 2147483648)
    (hm : es.length < 2147483648) (hr : ∀ e ∈ es, (1 ≤ e.1 ∧ e.1 ≤ n) ∧ 1 ≤ e.2 ∧ e.2 ≤ n) (fuel : Nat) :
    ∃ g, gpRead fuel s = some (some g, .ok) ∧ Reach g ∧ g.N = n ∧ Undirected g ∧ IsSimple g ∧
      ∀ u v, 1 ≤ u → u ≤ n → (Adjacent g u v ↔ u ≠ v ∧ ((u, v) ∈ es ∨ (v, u) ∈ es)) := by
  obtain ⟨⟨x, h1, h2⟩, p, L, h3, h4, h5⟩ := readLeda_spec h hn hn' hm hr
  refine ⟨p.g, ?_, h4.reach, h4.order, h4.undir, h4.simple, ?_⟩
  · unfold gpRead
    simp only [h1, Option.bind_eq_bind, Option.bind_some, h2, h3]
    rfl
  · intro u v hu hu'
    rw [h4.adjacent (by unfold IsVertex; rw [h4.order]; omega), h5]

/-- A path of three vertices; one edge is given twice and there is a loop. -/
def ledaSample : List Nat :=
  "LEDA.GRAPH\nstring\nvoid\n3\n|{a}|\n|{b}|\n|{c}|\n4 edges\n1 2 0 |{}|\n 2\t03\n2 1 0 |{}|\n3 3\n# end".toList.map Char.toNat

theorem ledaSample_text : LedaText 3 [(1, 2), (2, 3), (2, 1), (3, 3)] ledaSample := by
  refine ⟨"LEDA.GRAPH".toList.map Char.toNat, "string".toList.map Char.toNat, "void".toList.map Char.toNat, [51],
    ["|{a}|".toList.map Char.toNat, "|{b}|".toList.map Char.toNat, "|{c}|".toList.map Char.toNat], "4 edges".toList.map Char.toNat,
    ["1 2 0 |{}|".toList.map Char.toNat, " 2\t03".toList.map Char.toNat, "2 1 0 |{}|".toList.map Char.toNat, "3 3".toList.map Char.toNat],
    "# end".toList.map Char.toNat, by decide +kernel, ?_, by decide +kernel, ?_, rfl, ?_, ?_⟩
  · unfold IsLine; decide +kernel
  · exact ⟨[], [51], [], rfl, by unfold IsGap; decide, by unfold IsNumeral; decide, by unfold EndsNumeral; decide⟩
  · exact ⟨[], [52], " edges".toList.map Char.toNat, by decide +kernel, by unfold IsGap; decide, by unfold IsNumeral; decide, by unfold EndsNumeral; decide +kernel⟩
  · refine .cons ?_ (.cons ?_ (.cons ?_ (.cons ?_ .nil)))
    · exact ⟨[], [49], [32], [50], " 0 |{}|".toList.map Char.toNat, by decide +kernel, by unfold IsGap; decide, by unfold IsNumeral; decide, by simp,
        by unfold IsGap; decide, by unfold IsNumeral; decide, by unfold EndsNumeral; decide +kernel⟩
    · exact ⟨[32], [50], [9], [48, 51], [], by decide +kernel, by unfold IsGap; decide, by unfold IsNumeral; decide, by simp,
        by unfold IsGap; decide, by unfold IsNumeral; decide, by unfold EndsNumeral; decide +kernel⟩
    · exact ⟨[], [50], [32], [49], " 0 |{}|".toList.map Char.toNat, by decide +kernel, by unfold IsGap; decide, by unfold IsNumeral; decide, by simp,
        by unfold IsGap; decide, by unfold IsNumeral; decide, by unfold EndsNumeral; decide +kernel⟩
    · exact ⟨[], [51], [32], [51], [], by decide +kernel, by unfold IsGap; decide, by unfold IsNumeral; decide, by simp,
        by unfold IsGap; decide, by unfold IsNumeral; decide, by unfold EndsNumeral; decide +kernel⟩

example : ∃ n es s, LedaText n es s ∧ 1 ≤ n ∧ n < 2147483648 ∧ es.length < 2147483648 ∧
    ∀ e ∈ es, (1 ≤ e.1 ∧ e.1 ≤ n) ∧ 1 ≤ e.2 ∧ e.2 ≤ n :=
  ⟨_, _, _, ledaSample_text, by decide, by decide, by decide, by decide⟩

/-! ## C77: files that are not well formed -/

/-- C77 A LEDA file whose fourth line does not start with a positive number is refused and no graph is made. -/
theorem leda_no_order_partial {l1 l2 l3 ln rest : List Nat} (h1 : IsLine l1) (h2 : IsLine l2) (h3 : IsLine l3) (h4 : IsLine ln)
    (hmark : "LEDA.GRAPH".toList.map Char.toNat <+: l1)
    (hn : (∃ c r, ln = c :: r ∧ ¬ (48 ≤ c ∧ c ≤ 57) ∧ c ≠ 32 ∧ ¬ (9 ≤ c ∧ c ≤ 13) ∧ c ≠ 43 ∧ c ≠ 45) ∨ NumberLine 0 ln) (fuel : Nat) :
    gpRead fuel ([l1, l2, l3, ln].flatMap (· ++ [10]) ++ rest) = some (none, .notok) := by
  have hs : [l1, l2, l3, ln].flatMap (· ++ [10]) ++ rest = l1 ++ 10 :: (l2 ++ 10 :: (l3 ++ 10 :: (ln ++ 10 :: rest))) := by simp
  rw [hs]
  have e4 : fgetsMany 4 none (l1 ++ 10 :: (l2 ++ 10 :: (l3 ++ 10 :: (ln ++ 10 :: rest)))) = (some (ln ++ [10]), rest) := by
    simp only [fgetsMany, fgets_whole h1, fgets_whole h2, fgets_whole h3, fgets_whole h4]
  have hd := ledaLine_detect h1 hmark (l2 ++ 10 :: (l3 ++ 10 :: (ln ++ 10 :: rest)))
  obtain ⟨x, d1, d2⟩ := hd
  have hv : ∃ v : Option Int, scanOne (some (ln ++ [10])) = some v ∧ newGraph (v.getD (-1)) = none := by
    rcases hn with ⟨c, r, rfl, k1, k2, k3, k4, k5⟩ | hn
    · refine ⟨none, ?_, rfl⟩
      have hsp : isSpace c = false := by
        cases h : isSpace c
        · rfl
        · rw [isSpace_iff] at h; omega
      have hdg : isDigit c = false := by
        cases h : isDigit c
        · rfl
        · exact absurd (isDigit_iff.1 h) k1
      have hsg : ∀ t, sign (c :: t) = (false, c :: t) := by
        intro t
        unfold sign
        split
        · next heq => simp only [List.cons.injEq] at heq; omega
        · next heq => simp only [List.cons.injEq] at heq; omega
        · rfl
      have : scanInt (c :: r ++ [10]) = some (c :: r ++ [10], none) := by
        unfold scanInt
        have hdw : (c :: r ++ [10]).dropWhile isSpace = c :: (r ++ [10]) := by simp [hsp]
        rw [hdw, hsg]
        simp [hdg]
      unfold scanOne
      simp only [Option.bind_eq_bind, Option.bind_some, this]
      rfl
    · exact ⟨_, scanOne_line hn (by decide), rfl⟩
  obtain ⟨v, v1, v2⟩ := hv
  unfold gpRead
  simp only [d1, Option.bind_eq_bind, Option.bind_some, d2]
  unfold readLeda
  rw [e4]
  simp only [v1, Option.bind_eq_bind, Option.bind_some, v2]
  rfl

example : ∃ l1 l2 l3 ln : List Nat, IsLine l1 ∧ IsLine l2 ∧ IsLine l3 ∧ IsLine ln ∧ "LEDA.GRAPH".toList.map Char.toNat <+: l1 ∧
    ∃ c r, ln = c :: r ∧ ¬ (48 ≤ c ∧ c ≤ 57) ∧ c ≠ 32 ∧ ¬ (9 ≤ c ∧ c ≤ 13) ∧ c ≠ 43 ∧ c ≠ 45 :=
  ⟨"LEDA.GRAPH".toList.map Char.toNat, [118], [118], [120, 50], by unfold IsLine; decide +kernel, by unfold IsLine; decide, by unfold IsLine; decide,
    by unfold IsLine; decide, by decide +kernel, 120, [50], rfl, by decide, by decide, by decide, by decide, by decide⟩

/-- A file with two nodes and an edge between the nodes 7 and 1. -/
def ledaFar : List Nat := "LEDA.GRAPH\nvoid\nvoid\n2\n|{}|\n|{}|\n1\n7 1 0 |{}|\n".toList.map Char.toNat

/-- A file with two nodes and an edge between the nodes 1 and 4: node 4 is the place of a virtual vertex. -/
def ledaVirtual : List Nat := "LEDA.GRAPH\nvoid\nvoid\n2\n|{}|\n|{}|\n1\n1 4 0 |{}|\n".toList.map Char.toNat

/-- A file with two nodes, the name of the first has 260 characters, and one edge. -/
def ledaLong : List Nat :=
  "LEDA.GRAPH\nstring\nvoid\n2\n".toList.map Char.toNat ++ List.replicate 260 97 ++ "\n|{}|\n1\n1 2 0 |{}|\n".toList.map Char.toNat

/-- C77 is false of the code: an edge that names a node beyond the number of nodes makes the reader access memory outside the
vertex array or gives an edge to a virtual vertex with the result OK, and a node line of more than 254 characters is taken for
two lines so that a variable is used that was never set. -/
theorem leda_refused_false : gpRead 10 ledaFar = none ∧
    (∃ g, gpRead 10 ledaVirtual = some (some g, .ok) ∧ g.N = 2 ∧ Adjacent g 1 4) ∧ gpRead 10 ledaLong = none := by
  refine ⟨by decide +kernel, ?_, by decide +kernel⟩
  have h : ((gpRead 10 ledaVirtual).map fun p => (p.1.map fun g => (g.N, neighbors g 1), p.2)) = some (some (2, some [4]), .ok) := by
    decide +kernel
  cases hg : gpRead 10 ledaVirtual with
  | none => rw [hg] at h; simp at h
  | some p =>
    obtain ⟨og, r⟩ := p
    rw [hg] at h
    cases og with
    | none => simp at h
    | some g =>
      simp only [Option.map_some, Option.some.injEq, Prod.mk.injEq] at h
      obtain ⟨⟨h1, h2⟩, rfl⟩ := h
      exact ⟨g, rfl, h1, [4], h2, by simp⟩

end Verif.Props
