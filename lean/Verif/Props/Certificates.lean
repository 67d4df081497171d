import Verif.Props.Obstructions
import Verif.Test.Certificates

/-
No graph is certified planar and not planar (C29).
-/
namespace Verif.Props
open Verif Verif.Graph Verif.Test Verif.DFS

/-- No graph has a plane embedding and contains a subdivision of K5 or K3,3. -/
theorem certificates_exclude {s o t : PGraph} (hs : Consistent s) (ho : Consistent o) (ht : Consistent t)
    (hN : s.g.N = t.g.N) (hN' : o.g.N = t.g.N) (ha : SameAdjacencies s t) (hp : PlaneEmbedding s)
    (hb : SubAdjacencies o t) (hsub : IsSubdivision o.g 5 edgesK5 ∨ IsSubdivision o.g 6 edgesK33) : False := by
  obtain ⟨rs, hs⟩ := hs
  obtain ⟨ro, ho⟩ := ho
  obtain ⟨rt, ht⟩ := ht
  have ha' : SubAdj t s := by
    unfold SameAdjacencies at ha
    unfold SubAdj
    by_cases he : s.g.sortedByDfi = t.g.sortedByDfi
    · rw [if_pos he] at ha
      rw [if_pos he.symm]
      exact fun u w => (ha u w).2
    · rw [if_neg he] at ha
      rw [if_neg (Ne.symm he)]
      exact fun u w => (ha u w).2
  obtain ⟨π, hπ⟩ := renaming_of ho ht hN' hb
  obtain ⟨π', hπ'⟩ := renaming_of ht hs hN.symm ha'
  exact no_plane ho hs (hπ.comp hπ') hp hsub

/-- C29, for embedding results with a root in every component. If one result is accepted as a plane embedding of a graph,
every claimed obstruction to planarity of the graph is rejected. -/
theorem embedding_excludes_obstruction_partial {s o t : PGraph} (hs : Consistent s) (ho : Consistent o) (ht : Consistent t)
    (hN : s.g.N = t.g.N) (hN' : o.g.N = t.g.N) (hr : Rooted s) {flags : Nat}
    (h1 : (testEmbedResult flags s t .ok).map (fun x => x.2.2) = some .ok) :
    (testEmbedResult 1 o t .nonembeddable).map (fun x => x.2.2) = some .notok := by
  obtain ⟨s', t', r, e1, k1⟩ := embedding_test_sound hs ht hN hr flags
  obtain ⟨o', t'', r', e2, -, -, k2, k3⟩ := kuratowski_test_exact ho ht hN'
  rw [e1] at h1
  obtain ⟨ha, hp⟩ := k1 (Option.some.inj h1)
  rw [e2]
  rcases k2 with rfl | rfl
  · obtain ⟨hb, hsub⟩ := k3.1 rfl
    exact (certificates_exclude hs ho ht hN hN' ha hp hb hsub).elim
  · rfl

/-- C29, the other way round: if one result is accepted as an obstruction to planarity of a graph, every claimed
embedding with a root in every component is rejected. -/
theorem obstruction_excludes_embedding_partial {s o t : PGraph} (hs : Consistent s) (ho : Consistent o) (ht : Consistent t)
    (hN : s.g.N = t.g.N) (hN' : o.g.N = t.g.N) (hr : Rooted s) (flags : Nat)
    (h1 : (testEmbedResult 1 o t .nonembeddable).map (fun x => x.2.2) = some .nonembeddable) :
    (testEmbedResult flags s t .ok).map (fun x => x.2.2) = some .notok := by
  obtain ⟨rs, hs'⟩ := hs
  obtain ⟨rt, ht'⟩ := ht
  obtain ⟨s', t', r, e, -, -, hr', -⟩ := checkEmbedding_spec hs' ht' hN flags
  have e' : testEmbedResult flags s t .ok = some (s', t', r) := e
  rw [e']
  rcases hr' with rfl | rfl
  · have h2 := embedding_excludes_obstruction_partial ⟨rs, hs'⟩ ho ⟨rt, ht'⟩ hN hN' hr (flags := flags) (by rw [e']; rfl)
    rw [h1] at h2
    cases h2
  · rfl

/-- Without the roots C29 is false: after an edge has been deleted from a numbered graph, the same graph is accepted as
an embedding of itself and as an obstruction in itself. -/
theorem certificates_stale_false : ∃ s : PGraph, PReach s ∧
    (testEmbedResult 1 s s .ok).map (fun x => x.2.2) = some .ok ∧
    (testEmbedResult 1 s s .nonembeddable).map (fun x => x.2.2) = some .nonembeddable :=
  ⟨staleK5, staleK5_reach, by decide +kernel, by decide +kernel⟩

-- A numbered plane K4 is accepted, and meets the hypotheses; a subdivided K5 is accepted as an obstruction, and meets
-- those of the converse.
example : Consistent (numbered planeK4) ∧ Rooted (numbered planeK4) ∧
    (testEmbedResult 1 (numbered planeK4) planeK4 .ok).map (fun x => x.2.2) = some .ok := by
  obtain ⟨h1, h2, -⟩ := numbered_ok planeK4_reach (by decide +kernel)
  refine ⟨h1.inv, fun u hu => ?_, by decide +kernel⟩
  obtain ⟨r, hr, -⟩ := h2 u hu
  exact ⟨r, hr⟩
example : Consistent subK5 ∧ (testEmbedResult 1 subK5 subK5 .nonembeddable).map (fun x => x.2.2) = some .nonembeddable :=
  ⟨subK5_reach.inv, by decide +kernel⟩

end Verif.Props
