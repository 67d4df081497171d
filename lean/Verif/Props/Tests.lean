import Verif.Spec.Tests
import Verif.Test.Embedding

/-
Properties of the tests of embedding results (C24, C25, C30).
-/
namespace Verif.Props
open Verif Verif.Graph Verif.Test Verif.DFS

theorem consistent_of_reach {s : PGraph} (h : PReach s) : Consistent s := h.inv

theorem onlyVisited_of_marked {s s' : PGraph} (h : Marked s s') : OnlyVisited s s' := by
  obtain ⟨F, hF, rfl⟩ := h
  exact ⟨rfl, rfl, fun v => ⟨rfl, hF _ _⟩⟩

/-- C24. The subgraph test on consistent graphs of the same order is defined, changes at most visited marks, and if both
graphs or neither are sorted by vertex numbers, answers whether every adjacency of the first is one of the second. -/
theorem subgraph_test {h s : PGraph} (hh : Consistent h) (hs : Consistent s) (hN : h.g.N = s.g.N)
    (hf : h.g.sortedByDfi = s.g.sortedByDfi) :
    ∃ h' s' ans, testSubgraph h s = some (h', s', ans) ∧ OnlyVisited h h' ∧ OnlyVisited s s' ∧
      (ans = true ↔ ∀ u w, Adjacent h.g u w → Adjacent s.g u w) := by
  obtain ⟨rot, hh⟩ := hh
  obtain ⟨rot', hs⟩ := hs
  obtain ⟨h', s', ans, e, m1, m2, hans⟩ := testSubgraph_adj hh hs hN
  refine ⟨h', s', ans, e, onlyVisited_of_marked m1, onlyVisited_of_marked m2, ?_⟩
  rwa [SubAdj, if_pos hf] at hans

/-- C24. If at most one of the graphs is sorted, the test compares the adjacencies by the names vertices had before
sorting. -/
theorem subgraph_test_names {h s : PGraph} (hh : Consistent h) (hs : Consistent s) (hN : h.g.N = s.g.N)
    (hf : h.g.sortedByDfi = false ∨ s.g.sortedByDfi = false) :
    ∃ h' s' ans, testSubgraph h s = some (h', s', ans) ∧ OnlyVisited h h' ∧ OnlyVisited s s' ∧
      (ans = true ↔ ∀ a b, NamedAdjacent h a b → NamedAdjacent s a b) := by
  obtain ⟨rot, hh⟩ := hh
  obtain ⟨rot', hs⟩ := hs
  obtain ⟨h', s', ans, e, m1, m2, hans⟩ := testSubgraph_adj hh hs hN
  refine ⟨h', s', ans, e, onlyVisited_of_marked m1, onlyVisited_of_marked m2, hans.trans ?_⟩
  unfold SubAdj
  split
  · rename_i hd
    have h1 : h.g.sortedByDfi = false := by rcases hf with hf | hf; exact hf; rw [hd, hf]
    simp only [namedAdjacent_unsorted h1, namedAdjacent_unsorted (hd ▸ h1)]
  · rfl

/-- A subgraph of `five`. -/
def partOfFive : PGraph := made 5 [.add 1 0 4 0, .add 4 1 3 0]
/-- Not a subgraph of `five`. -/
def notOfFive : PGraph := made 5 [.add 1 0 4 0, .add 5 0 3 0]

/-- Hypotheses of C24, and both answers, with the second graph sorted. -/
example : Consistent partOfFive ∧ Consistent notOfFive ∧ Consistent fiveSorted ∧ partOfFive.g.N = fiveSorted.g.N ∧
    partOfFive.g.sortedByDfi = false ∧ fiveSorted.g.sortedByDfi = true ∧
    (testSubgraph partOfFive fiveSorted).map (·.2.2) = some true ∧
    (testSubgraph notOfFive fiveSorted).map (·.2.2) = some false :=
  ⟨consistent_of_reach (made_reach _ _ (by decide) (by decide +kernel) (by decide)),
   consistent_of_reach (made_reach _ _ (by decide) (by decide +kernel) (by decide)),
   consistent_of_reach fiveSorted_reach,
   by decide +kernel, by decide +kernel, by decide +kernel, by decide +kernel, by decide +kernel⟩

/-! ## Embeddings -/

/-- A numbering by depth-first search records exactly one root in each component. -/
theorem rootedOnce_of_forest {s : PGraph} {num par : Nat → Nat} (h : Forest s num par) : RootedOnce s := by
  intro u hu
  obtain ⟨r, ⟨h1, h2, h3⟩, h4⟩ := h.root u hu
  refine ⟨r, ⟨h1, by rw [h.parent r h1, h2], h3⟩, fun r' k1 k2 k3 => h4 r' k1 ?_ k3⟩
  rw [h.parent r' k1] at k2
  exact Option.some.inj k2

/-- The number of facial walks never exceeds the number Euler's formula gives for plane embeddings. -/
theorem euler_bound {s : PGraph} (hs : Consistent s) {F C D : List Nat} (hc : Counted s F C D) :
    F.length + s.g.N ≤ s.g.M + C.length + D.length := by
  obtain ⟨rot, h⟩ := hs
  exact euler_graph h hc

/-- C25, soundness. On consistent graphs of the same order, if every component of the result has a root, the test of an
embedding is defined and accepts only plane embeddings with the adjacencies of the original graph. -/
theorem embedding_test_sound {s t : PGraph} (hs : Consistent s) (ht : Consistent t) (hN : s.g.N = t.g.N)
    (hr : Rooted s) (flags : Nat) :
    ∃ s' t' r, testEmbedResult flags s t .ok = some (s', t', r) ∧
      (r = .ok → SameAdjacencies s t ∧ PlaneEmbedding s) := by
  obtain ⟨rot, hs⟩ := hs
  obtain ⟨rot', ht⟩ := ht
  obtain ⟨s', t', r, e, -, -, -, hok⟩ := checkEmbedding_spec hs ht hN flags
  refine ⟨s', t', r, e, fun h => ?_⟩
  obtain ⟨h1, ⟨L, h2, h3⟩, -⟩ := hok.1 h
  refine ⟨h1, ?_⟩
  obtain ⟨C, hC⟩ := exists_transversal hs (IsPrimary s) fun v hv => hv.2
  obtain ⟨D, hD⟩ := exists_transversal hs (fun v => IsPrimary s v ∧ ∃ w, Adjacent s.g v w) fun v hv => hv.1.2
  have hc : Counted s L C D := ⟨h2, hC, hD⟩
  have h4 := euler_graph hs hc
  have h5 := roots_ge hs hr hc
  exact ⟨L, C, D, hc, by omega⟩

/-- C25, exactness. If every component of the result has exactly one root, as depth-first search leaves it, exactly the
plane embeddings with the adjacencies of the original graph are accepted. -/
theorem embedding_test_exact {s t : PGraph} (hs : Consistent s) (ht : Consistent t) (hN : s.g.N = t.g.N)
    (hr : RootedOnce s) {flags : Nat} (hf : flags ≠ 2) :
    ∃ s' t' r, testEmbedResult flags s t .ok = some (s', t', r) ∧ (r = .ok ∨ r = .notok) ∧
      (r = .ok ↔ SameAdjacencies s t ∧ PlaneEmbedding s) := by
  obtain ⟨rot, hs⟩ := hs
  obtain ⟨rot', ht⟩ := ht
  obtain ⟨s', t', r, e, -, -, hr', hok⟩ := checkEmbedding_spec hs ht hN flags
  refine ⟨s', t', r, e, hr', hok.trans ?_⟩
  constructor
  · rintro ⟨h1, ⟨L, h2, h3⟩, -⟩
    exact ⟨h1, L, _, _, roots_counted hs hr.rooted (hr.unique hs) h2, h3⟩
  · rintro ⟨h1, F, C, D, hc, he⟩
    have h2 := roots_counted hs hr.rooted (hr.unique hs) hc.faces
    have h3 := comp_count hs hc.edged
    have h4 := comp_count hs h2.edged
    have h5 := comps_split hs hc.comps hc.edged
    have h6 := comps_split hs h2.comps h2.edged
    exact ⟨h1, ⟨F, hc.faces, by omega⟩, fun h => absurd h hf⟩

/-- C30. With the flags of outerplanarity, exactly the plane embeddings with the adjacencies of the original graph are
accepted in which the facial walk of the first arc of each root meets all vertices of its component; so one facial walk
of each component does. -/
theorem outerplanar_test_exact {s t : PGraph} (hs : Consistent s) (ht : Consistent t) (hN : s.g.N = t.g.N)
    (hr : RootedOnce s) :
    ∃ s' t' r, testEmbedResult 2 s t .ok = some (s', t', r) ∧ (r = .ok ∨ r = .notok) ∧
      (r = .ok ↔ SameAdjacencies s t ∧ PlaneEmbedding s ∧ RootFace s) ∧ (r = .ok → OneFace s) := by
  obtain ⟨rot, hs⟩ := hs
  obtain ⟨rot', ht⟩ := ht
  obtain ⟨s', t', r, e, -, -, hr', hok⟩ := checkEmbedding_spec hs ht hN 2
  have hiff : r = .ok ↔ SameAdjacencies s t ∧ PlaneEmbedding s ∧ RootFace s := by
    refine hok.trans ?_
    constructor
    · rintro ⟨h1, ⟨L, h2, h3⟩, h4⟩
      exact ⟨h1, ⟨L, _, _, roots_counted hs hr.rooted (hr.unique hs) h2, h3⟩, (rootFace_iff hs hr).1 (h4 rfl)⟩
    · rintro ⟨h1, ⟨F, C, D, hc, he⟩, h4⟩
      have h2 := roots_counted hs hr.rooted (hr.unique hs) hc.faces
      have h3 := comp_count hs hc.edged
      have h4' := comp_count hs h2.edged
      have h5 := comps_split hs hc.comps hc.edged
      have h6 := comps_split hs h2.comps h2.edged
      exact ⟨h1, ⟨F, hc.faces, by omega⟩, fun _ => (rootFace_iff hs hr).2 h4⟩
  exact ⟨s', t', r, e, hr', hiff, fun h => rootFace_oneFace hs hr.rooted (hiff.1 h).2.2⟩

/-- K4 and an isolated vertex, with a plane embedding. -/
def planeK4 : PGraph := made 5 [.add 1 0 2 0, .add 1 1 3 0, .add 1 1 4 0, .add 2 0 3 1, .add 2 0 4 0, .add 3 0 4 0]
/-- The same graph, embedded in the torus. -/
def torusK4 : PGraph := made 5 [.add 1 0 2 0, .add 1 0 3 0, .add 1 0 4 0, .add 2 0 3 0, .add 2 0 4 0, .add 3 0 4 0]
theorem planeK4_reach : PReach planeK4 := made_reach _ _ (by decide) (by decide +kernel) (by decide)
theorem torusK4_reach : PReach torusK4 := made_reach _ _ (by decide) (by decide +kernel) (by decide)
/-- The graph after depth-first search. -/
def numbered (s : PGraph) : PGraph := (s.createDFSTree.map Prod.fst).getD s

theorem numbered_ok {s : PGraph} (h : PReach s) (hf : s.g.dfsNumbered = false) :
    PReach (numbered s) ∧ RootedOnce (numbered s) ∧ (numbered s).g.N = s.g.N := by
  obtain ⟨s', num, par, rot, h1, h2, h3, -, -, -, h4, -⟩ := search_ok h hf
  have he : numbered s = s' := by unfold numbered; rw [h1]; rfl
  rw [he]
  exact ⟨.dfs h h1, rootedOnce_of_forest h3, h4.1⟩

/-- Hypotheses of C25, and both answers. -/
example : Consistent (numbered planeK4) ∧ RootedOnce (numbered planeK4) ∧ Consistent (numbered torusK4) ∧
    RootedOnce (numbered torusK4) ∧ Consistent planeK4 ∧
    (testEmbedResult 1 (numbered planeK4) planeK4 .ok).map (·.2.2) = some .ok ∧
    (testEmbedResult 1 (numbered torusK4) planeK4 .ok).map (·.2.2) = some .notok :=
  ⟨(numbered_ok planeK4_reach (by decide +kernel)).1.inv, (numbered_ok planeK4_reach (by decide +kernel)).2.1,
   (numbered_ok torusK4_reach (by decide +kernel)).1.inv, (numbered_ok torusK4_reach (by decide +kernel)).2.1,
   planeK4_reach.inv, by decide +kernel, by decide +kernel⟩

/-- Hypotheses of C30, and both answers. -/
example : Consistent (numbered five) ∧ RootedOnce (numbered five) ∧
    (testEmbedResult 2 (numbered five) five .ok).map (·.2.2) = some .ok ∧
    (testEmbedResult 2 (numbered planeK4) planeK4 .ok).map (·.2.2) = some .notok :=
  ⟨(numbered_ok five_reach (by decide +kernel)).1.inv, (numbered_ok five_reach (by decide +kernel)).2.1,
   by decide +kernel, by decide +kernel⟩

/-! ## Stale roots -/

/-- K5 on the vertices 2 to 6, embedded in the torus, and an edge 1-2. -/
def tailedK5 : PGraph :=
  { g := ((exec (Graph.init 6 22) [.add 1 0 2 0, .add 2 1 3 1, .add 2 0 4 0, .add 2 1 5 1, .add 2 1 6 1, .add 3 1 4 0,
      .add 3 0 5 1, .add 3 0 6 0, .add 4 0 5 1, .add 4 0 6 0, .add 5 0 6 0]).map Prod.fst).getD (Graph.init 6 22) }
/-- The tail deleted from the numbered graph. -/
def staleK5 : PGraph :=
  (numbered tailedK5).setG ((((numbered tailedK5).g.step (.delete 2 0)).map Prod.fst).getD (numbered tailedK5).g)

theorem tailedK5_reach : PReach tailedK5 := by
  unfold tailedK5
  rcases h : exec (Graph.init 6 22) [.add 1 0 2 0, .add 2 1 3 1, .add 2 0 4 0, .add 2 1 5 1, .add 2 1 6 1, .add 3 1 4 0,
      .add 3 0 5 1, .add 3 0 6 0, .add 4 0 5 1, .add 4 0 6 0, .add 5 0 6 0] with _ | ⟨g, outs⟩
  · exact .init 6 22 (by decide) rfl
  · exact preach_exec _ (s := { g := Graph.init 6 22 }) (.init 6 22 (by decide) rfl) rfl (by decide +kernel)
      (by decide) h

theorem setG_self (s : PGraph) : s.setG s.g = s := rfl

theorem staleK5_reach : PReach staleK5 := by
  obtain ⟨h1, -, h2⟩ := numbered_ok tailedK5_reach (by decide +kernel)
  unfold staleK5
  rcases h : (numbered tailedK5).g.step (.delete 2 0) with _ | ⟨g, out⟩
  · rw [Option.map_none, Option.getD_none, setG_self]; exact h1
  · refine preach_exec [.delete 2 0] h1 (N := 6) (by decide +kernel) (by decide +kernel) (by decide) (outs := [out]) ?_
    unfold exec
    rw [h]; rfl

/-- C25 fails for graphs edited after numbering: the test takes the roots from the recorded parents, and accepts an
embedding of K5 after the edge to its root has been deleted. -/
theorem embedding_test_stale_false :
    ∃ s : PGraph, PReach s ∧ (testEmbedResult 1 s s .ok).map (·.2.2) = some .ok ∧ ¬ PlaneEmbedding s ∧
      (∀ u w, 2 ≤ u → u ≤ 6 → 2 ≤ w → w ≤ 6 → u ≠ w → Adjacent s.g u w) := by
  have hadj : ∀ u w, 2 ≤ u → u ≤ 6 → 2 ≤ w → w ≤ 6 → u ≠ w → Adjacent staleK5.g u w := by
    have hall : ∀ u ∈ List.range' 2 5, ∀ w ∈ List.range' 2 5, u ≠ w →
        (neighbors staleK5.g u).any (fun l => decide (w ∈ l)) = true := by decide +kernel
    intro u w h1 h2 h3 h4 h5
    have := hall u (by simp; omega) w (by simp; omega) h5
    unfold Adjacent
    cases hn : neighbors staleK5.g u with
    | none => rw [hn] at this; cases this
    | some l =>
      rw [hn] at this
      exact ⟨l, rfl, by simpa using this⟩
  refine ⟨staleK5, staleK5_reach, by decide +kernel, ?_, hadj⟩
  rintro ⟨F, C, D, hc, he⟩
  obtain ⟨rot, h⟩ := staleK5_reach.inv
  obtain ⟨Fl, r, L, e, -, -, hL, -, hok⟩ := checkFacial_spec h
  have hr : r = .ok := by
    have h1 : (checkFacial staleK5).map (·.2) = some .ok := by decide +kernel
    rw [e] at h1
    exact Option.some.inj h1
  have h2 := hok.1 hr
  have h3 := face_count h.inv hL
  have h4 := face_count h.inv hc.faces
  have h5 : rootList staleK5 = [1] := by decide +kernel
  have h6 : edgedRoots staleK5 rot = [] := by
    unfold edgedRoots
    rw [h5, List.filter_cons_of_neg (by
      have : rot 1 = [] := by
        have hn : neighbors staleK5.g 1 = some [] := by decide +kernel
        rw [neighbors_eq h.inv (by decide +kernel)] at hn
        simpa [heads] using hn
      rw [this]; simp)]
    rfl
  rw [h5, h6] at h2
  have h7 : 0 < C.length := by
    obtain ⟨a, ha, _⟩ := hc.comps.all 1 (by unfold IsPrimary; decide +kernel)
    exact List.length_pos_of_mem ha
  have h8 : 0 < D.length := by
    obtain ⟨a, ha, _⟩ := hc.edged.all 2 ⟨by unfold IsPrimary; decide +kernel, 3, hadj 2 3 (by omega) (by omega) (by omega) (by omega) (by omega)⟩
    exact List.length_pos_of_mem ha
  simp only [List.length_cons, List.length_nil] at h2
  omega

end Verif.Props
