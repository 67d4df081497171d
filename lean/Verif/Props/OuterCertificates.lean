import Verif.Props.Certificates
import Verif.Props.EmbedTotal
import Verif.Embed.NoOuter

/-
No graph is certified outerplanar and not outerplanar (C66).
-/
namespace Verif.Props
open Verif Verif.Graph Verif.Test Verif.DFS Verif.Embed

/-- No graph has a plane embedding in which one face of each component meets all its vertices, and has K4 or K2,3 as a
minor of a part of it. -/
theorem outer_excludes_minors {s o t : PGraph} (hs : Consistent s) (ho : Consistent o) (ht : Consistent t)
    (hN : s.g.N = t.g.N) (hN' : o.g.N = t.g.N) (ha : SameAdjacencies s t) (hp : PlaneEmbedding s) (hf : OneFace s)
    (hb : SubAdjacencies o t) (hm : HasMinor o.g 4 edgesK4 ∨ HasMinor o.g 5 edgesK23) : False := by
  obtain ⟨rs, hs⟩ := hs
  obtain ⟨ro, ho⟩ := ho
  obtain ⟨rt, ht⟩ := ht
  have ha' : SubAdj t s := by
    unfold SameAdjacencies at ha
    unfold SubAdj
    by_cases he : s.g.sortedByDfi = t.g.sortedByDfi
    · rw [if_pos he] at ha
      rw [if_pos he.symm]
      exact fun u w => (ha u w).2
    · rw [if_neg he] at ha
      rw [if_neg (Ne.symm he)]
      exact fun u w => (ha u w).2
  obtain ⟨π, hπ⟩ := renaming_of ho ht hN' hb
  obtain ⟨π', hπ'⟩ := renaming_of ht hs hN.symm ha'
  refine no_outer_minor ho hs (hπ.comp hπ') hp hf ?_
  rcases hm with hm | hm
  · exact .inl (minor_of ho (by decide) hm)
  · exact .inr (minor_of ho (by decide) hm)

/-- The parts of a graph without loops have none. -/
theorem noLoops_part {o t : PGraph} (ho : Consistent o) (ht : Consistent t) (hN : o.g.N = t.g.N) (hb : SubAdjacencies o t)
    (hl : NoLoops t.g) : NoLoops o.g := by
  obtain ⟨ro, ho⟩ := ho
  obtain ⟨rt, ht⟩ := ht
  obtain ⟨π, hπ⟩ := renaming_of ho ht hN hb
  exact fun u hu => hl _ (hπ.adj u u hu)

/-- C66: if one result is accepted as an outerplanar embedding of a graph without loops, every claimed obstruction to
outerplanarity of the graph is rejected. -/
theorem outer_embedding_excludes_obstruction {s o t : PGraph} (hs : Consistent s) (ho : Consistent o) (ht : Consistent t)
    (hN : s.g.N = t.g.N) (hN' : o.g.N = t.g.N) (hr : RootedOnce s) (hl : NoLoops t.g)
    (h1 : (testEmbedResult 2 s t .ok).map (fun x => x.2.2) = some .ok) :
    (testEmbedResult 2 o t .nonembeddable).map (fun x => x.2.2) = some .notok := by
  obtain ⟨s', t', r, e1, -, k1, k1'⟩ := outerplanar_test_exact hs ht hN hr
  obtain ⟨o', t'', r', e2, -, -, k2, k3, k4, -⟩ := outerplanar_obstruction_partial ho ht hN'
  rw [e1] at h1
  have hok := Option.some.inj h1
  obtain ⟨ha, hp, -⟩ := k1.1 hok
  rw [e2]
  rcases k2 with rfl | rfl
  · have hb := k3 rfl
    have hsub := k4 (noLoops_part ho ht hN' hb hl) rfl
    refine (outer_excludes_minors hs ho ht hN hN' ha hp (k1' hok) hb ?_).elim
    obtain ⟨ro, hi⟩ := ho
    exact hsub.imp (fun h => subdivision_minor hi h (by decide) (by decide)) fun h => subdivision_minor hi h (by decide) (by decide)
  · rfl

/-- C66, the other way round: if one result is accepted as an obstruction to outerplanarity of a graph without loops, every
claimed outerplanar embedding is rejected. -/
theorem obstruction_excludes_outer_embedding {s o t : PGraph} (hs : Consistent s) (ho : Consistent o) (ht : Consistent t)
    (hN : s.g.N = t.g.N) (hN' : o.g.N = t.g.N) (hr : RootedOnce s) (hl : NoLoops t.g)
    (h1 : (testEmbedResult 2 o t .nonembeddable).map (fun x => x.2.2) = some .nonembeddable) :
    (testEmbedResult 2 s t .ok).map (fun x => x.2.2) = some .notok := by
  obtain ⟨s', t', r, e1, hr', -⟩ := outerplanar_test_exact hs ht hN hr
  rw [e1]
  rcases hr' with rfl | rfl
  · have h2 := outer_embedding_excludes_obstruction hs ho ht hN hN' hr hl (by rw [e1]; rfl)
    rw [h1] at h2
    cases h2
  · rfl

/-- The subdivisions of K4 and K2,3 that the test accepts as obstructions have K4 and K2,3 as minors. -/
theorem subdivision_has_minor {s : PGraph} (hs : Consistent s) {n : Nat} {E : List (Nat × Nat)} (h : IsSubdivision s.g n E)
    (hE : E.Nodup) (hlt : ∀ p ∈ E, p.1 < n ∧ p.2 < n) : HasMinor s.g n E := by
  obtain ⟨rot, hs⟩ := hs
  exact subdivision_minor hs h hE hlt

/-- A cycle of four vertices with a chord, and an edge that hangs from it. -/
def fan : PGraph := made 5 [.add 1 0 2 0, .add 1 0 3 0, .add 1 0 4 0, .add 2 0 3 0, .add 3 0 4 0, .add 4 0 5 0]
theorem fan_reach : PReach fan := made_reach _ _ (by decide) (by decide +kernel) (by decide)

-- A numbered outerplanar graph is accepted, and meets the hypotheses; a subdivided K4 is accepted as an obstruction, and
-- meets those of the converse.
example : Consistent (numbered fan) ∧ RootedOnce (numbered fan) ∧
    (testEmbedResult 2 (numbered fan) fan .ok).map (·.2.2) = some .ok :=
  ⟨(numbered_ok fan_reach (by decide +kernel)).1.inv, (numbered_ok fan_reach (by decide +kernel)).2.1, by decide +kernel⟩
example : Consistent subK4 ∧ (testEmbedResult 2 subK4 subK4 .nonembeddable).map (fun x => x.2.2) = some .nonembeddable :=
  ⟨subK4_reach.inv, by decide +kernel⟩
example : NoLoops fan.g := by
  intro u hu
  obtain ⟨rot, hi⟩ := fan_reach.inv
  have hN : fan.g.N = 5 := by decide +kernel
  have hr := adjacent_range hi hu
  obtain ⟨l, h1, h2⟩ := hu
  have key : ∀ u < 6, 1 ≤ u → ((neighbors fan.g u).getD [u]).contains u = false := by decide +kernel
  have := key u (by omega) hr.1.1
  rw [h1] at this
  simp [h2] at this

end Verif.Props
