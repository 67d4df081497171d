import Verif.Embed.Complete
import Verif.Props.Embed

/-
What a blocked embedder means: C72.
-/
namespace Verif.Props
open Verif Verif.Graph Verif.DFS Verif.Embed Verif.EGraph Verif.Map Verif.Test Function

/-- The graph is planar: a graph with the same number of vertices and edges and the same adjacencies, whose adjacency
lists are a plane embedding. -/
def IsPlanar (s : PGraph) : Prop :=
  ∃ p : PGraph, Consistent p ∧ p.g.N = s.g.N ∧ p.g.M = s.g.M ∧ SameAdjacencies p s ∧ PlaneEmbedding p

/-- C72: if gp_Embed is blocked, the graph has K5 or K3,3 as a minor. -/
theorem embed_blocked_minor {s : PGraph} (hr : PReach s) (hf : s.g.dfsNumbered = false) (hs : IsSimple s.g) {t : EGraph}
    (h : (ofP s).embed false = some (t, .blocked)) : HasMinor s.g 5 edgesK5 ∨ HasMinor s.g 6 edgesK33 := by
  obtain ⟨rot, B, num, inv, hI, S, hb, hap⟩ := embed_complete hr hf hs h
  have hV : ∀ a b, Adjacent s.g a b → (1 ≤ a ∧ a ≤ s.g.N) ∧ 1 ≤ b ∧ b ≤ s.g.N := fun a b k => adjacent_range hI k
  rcases S.bad hI hap hb with ⟨T, hb⟩ | ⟨T, hb⟩
  · exact .inl (hasMinor_of hb hV (by decide) (by decide))
  · exact .inr (hasMinor_of hb hV (by decide) (by decide))

/-- C72: if gp_Embed is blocked, no graph that contains all its adjacencies has a plane embedding. -/
theorem embed_blocked_nonplanar {s : PGraph} (hr : PReach s) (hf : s.g.dfsNumbered = false) (hs : IsSimple s.g) {t : EGraph}
    (h : (ofP s).embed false = some (t, .blocked)) {p : PGraph} (hc : Consistent p) (hN : p.g.N = s.g.N) (ha : SubAdjacencies s p) :
    ¬ PlaneEmbedding p := by
  intro hp
  obtain ⟨rot, B, num, inv, hI, S, hb, hap⟩ := embed_complete hr hf hs h
  obtain ⟨rot', hP⟩ := hc
  obtain ⟨π, hπ⟩ := renaming_of hI hP hN.symm ha
  exact no_plane_minor hI hP hπ hp (S.bad hI hap hb)

/-- C72: what gp_Embed reports about a graph it works on is exact. -/
theorem embed_verdict {s : PGraph} (hr : PReach s) (hf : s.g.dfsNumbered = false) (hs : IsSimple s.g) {t : EGraph} {r : Embedding}
    (h : (ofP s).embed false = some (t, r)) : (r = .ok → IsPlanar s) ∧ (r = .blocked → ¬ IsPlanar s) := by
  constructor
  · rintro rfl
    obtain ⟨h1, h2, h3, h4⟩ := embed_ok_plane hr hf hs h
    have hc := consistent_of_reach hr
    have hun : s.g.sortedByDfi = false := by obtain ⟨rot, hI⟩ := hc; exact hI.unsorted hf
    exact ⟨t.p, h1, h4.order, h4.size, sameAdjacencies_of_sorted hc h1 hun h2 h4, h3⟩
  · rintro rfl ⟨p, h1, h2, _, h3, h4⟩
    exact embed_blocked_nonplanar hr hf hs h h1 h2 (subAdj_both.2 h3).2 h4

/-- K3,3. -/
def sixVertices : PGraph := made 6 [.add 1 0 4 0, .add 1 0 5 0, .add 1 0 6 0, .add 2 0 4 0, .add 2 0 5 0, .add 2 0 6 0, .add 3 0 4 0,
  .add 3 0 5 0, .add 3 0 6 0]
theorem sixVertices_reach : PReach sixVertices := made_reach _ _ (by decide) (by decide +kernel) (by decide)

/-- Hypotheses of C72. -/
example : PReach sixVertices ∧ sixVertices.g.dfsNumbered = false ∧ IsSimple sixVertices.g ∧ ∃ t, (ofP sixVertices).embed false = some (t, .blocked) := by
  refine ⟨sixVertices_reach, by decide +kernel, ?_, ?_⟩
  · have hN : sixVertices.g.N = 6 := by decide +kernel
    have hd : ∀ w, w < 13 → 1 ≤ w → ((neighbors sixVertices.g w).map fun l => decide (l.Nodup ∧ w ∉ l ∧ (∀ x ∈ l, x ≤ 6) ∧ (6 < w → l = []))) = some true := by
      decide +kernel
    rintro w ⟨h1, h2⟩
    rw [hN] at h2 ⊢
    have := hd w (by omega) h1
    rw [Option.map_eq_some_iff] at this
    obtain ⟨l, h3, h4⟩ := this
    exact ⟨l, h3, of_decide_eq_true h4⟩
  · have hd : ((ofP sixVertices).embed false).map (·.2) = some .blocked := by decide +kernel
    rw [Option.map_eq_some_iff] at hd
    obtain ⟨⟨t, r⟩, h1, h2⟩ := hd
    exact ⟨t, by rw [h1]; simp only at h2; rw [h2]⟩

end Verif.Props
