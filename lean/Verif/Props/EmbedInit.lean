import Verif.Embed.Init
import Verif.Props.DFS

/-
Properties of the start of the embedder: C23, C63.
-/
namespace Verif.Props
open Verif Verif.Graph Verif.DFS Function

/-- C23, the part that holds: gp_CreateDFSTree has a defined outcome, and returns OK, on every graph the API can
produce, also after edits of a numbered graph. Missing: gp_Embed on a numbered graph, see `embed_start_false`. -/
theorem embed_start_partial {s : PGraph} (h : PReach s) : ∃ s', s.createDFSTree = some (s', .ok) := by
  cases hf : s.g.dfsNumbered with
  | false =>
    obtain ⟨s', _, _, h1, _⟩ := dfs_numbers_all h hf
    exact ⟨s', h1⟩
  | true => exact ⟨s, by simp [PGraph.createDFSTree, hf]⟩

/-- Two vertices and an edge. -/
def two : PGraph := made 2 [.add 1 0 2 0]
theorem two_reach : PReach two := made_reach _ _ (by decide) (by decide +kernel) (by decide)

/-- C23 is false: number the graph with one edge, delete the edge and start the embedder: it skips vertex 2, which still
has a parent, and reads the parent of vertex 3 outside the vertex information. -/
theorem embed_start_false : ¬ ∀ s : PGraph, PReach s → ∃ r, (EGraph.ofP s).embeddingInitialize = some r := by
  intro hall
  obtain ⟨s1, num, par, rot, h1, hI, _⟩ := search_ok two_reach (by decide +kernel)
  have hv : ((two.createDFSTree.map fun p => validB p.1.g (.delete 2 0)) = some true) := by decide +kernel
  have hd : ((two.createDFSTree.bind fun p => (p.1.g.step (.delete 2 0)).map fun q =>
    (EGraph.ofP (p.1.setG q.1)).embeddingInitialize.isSome) = some false) := by decide +kernel
  rw [h1] at hv hd
  have hv : validB s1.g (.delete 2 0) = true := by simpa using hv
  simp only [Option.bind_some] at hd
  rcases h2 : s1.g.step (.delete 2 0) with _ | ⟨g, o⟩
  · simp [h2] at hd
  · simp only [h2, Option.map_some, Option.some.injEq] at hd
    have hr : PReach (s1.setG g) := .edit (.dfs two_reach h1) (validB_sound hv) trivial h2
    obtain ⟨r, h3⟩ := hall _ hr
    rw [h3] at hd
    cases hd

/-- The path 1-3-2. -/
def bent : PGraph := made 3 [.add 1 0 3 0, .add 3 0 2 0]
theorem bent_reach : PReach bent := made_reach _ _ (by decide) (by decide +kernel) (by decide)

/-- C63 is false: if the user has sorted the vertices before gp_Embed, its second sort forgets the names of the input
graph: for the path 1-3-2, after gp_SortVertices and the start of gp_Embed, vertex 2 (which was vertex 3) has no
record of its old name, and the graph counts as not sorted. -/
theorem embed_names_false : ¬ ∀ s s1 : PGraph, ∀ s2 : EGraph, PReach s → s.g.sortedByDfi = false →
    s.sortVertices = some (s1, .ok) → (EGraph.ofP s1).embeddingInitialize = some (s2, .ok) →
    (∀ u, IsPrimary s1 u → s2.p.g.getIndex u = s1.g.getIndex u) ∧ s2.p.g.sortedByDfi = true := by
  intro hall
  have hd : ((bent.sortVertices.bind fun p => (EGraph.ofP p.1).embeddingInitialize.map fun q =>
    (p.2, q.2, q.1.p.g.sortedByDfi)) = some (.ok, .ok, false)) := by decide +kernel
  rcases h1 : bent.sortVertices with _ | ⟨s1, r⟩
  · simp [h1] at hd
  · simp only [h1, Option.bind_some] at hd
    rcases h2 : (EGraph.ofP s1).embeddingInitialize with _ | ⟨s2, r2⟩
    · simp [h2] at hd
    · simp only [h2, Option.map_some, Option.some.injEq, Prod.mk.injEq] at hd
      obtain ⟨rfl, rfl, hs⟩ := hd
      have := (hall bent s1 s2 bent_reach (by decide +kernel) h1 h2).2
      rw [hs] at this
      cases this

end Verif.Props
