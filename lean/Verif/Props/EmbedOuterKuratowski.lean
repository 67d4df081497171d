import Verif.Embed.IsoOuterEnd
import Verif.Props.EmbedIsolate

/-
What is left of a graph that is not outerplanar: C78.
-/
namespace Verif.Props
open Verif Verif.Graph Verif.DFS Verif.Embed Verif.EGraph Verif.Map Verif.Test Verif.Isolate Function

/-- C78: when gp_Embed(EMBEDFLAGS_OUTERPLANAR) reports NONEMBEDDABLE, the edges it leaves in the graph form a subdivision
of K2,3 or of K4. -/
theorem nonembeddable_outer_subdivision {s : PGraph} (hr : PReach s) (hf : s.g.dfsNumbered = false) (hs : IsSimple s.g) {t : EGraph}
    (h : (ofP s).gpEmbed true = some (t, .nonembeddable)) : IsSubdivision t.p.g 5 edgesK23 ∨ IsSubdivision t.p.g 4 edgesK4 := by
  obtain ⟨s1, h1, h2⟩ := gpEmbed_some h
  obtain ⟨rot, B, num, inv, Pl, v, hI, S, hv, hg, hap⟩ := embed_stuck hr hf hs h1
  have hB := no_loop hI S (simple_of hs rot hI)
  unfold isolate at h2
  rw [hg.2.1] at h2
  exact isolateOuter_subdivision hB S hI hv hap hg _ h2 rfl

/-- C78: gp_TestEmbedResultIntegrity accepts every NONEMBEDDABLE result of gp_Embed(EMBEDFLAGS_OUTERPLANAR). -/
theorem nonembeddable_outer_accepted {s : PGraph} (hr : PReach s) (hf : s.g.dfsNumbered = false) (hs : IsSimple s.g) {t : EGraph}
    (h : (ofP s).gpEmbed true = some (t, .nonembeddable)) :
    (testEmbedResult 2 t.p s .nonembeddable).map (fun x => x.2.2) = some .nonembeddable :=
  (nonembeddable_outer_test hr hf hs h).2 (nonembeddable_outer_subdivision hr hf hs h).symm

theorem simple_of_lists {s : PGraph} {N : Nat} (hN : s.g.N = N)
    (hd : ∀ w, w < N + N + 1 → 1 ≤ w → ((neighbors s.g w).map fun l => decide (l.Nodup ∧ w ∉ l ∧ (∀ x ∈ l, x ≤ N) ∧ (N < w → l = []))) = some true) :
    IsSimple s.g := by
  subst hN
  rintro w ⟨h1, h2⟩
  have := hd w (by omega) h1
  rw [Option.map_eq_some_iff] at this
  obtain ⟨l, h3, h4⟩ := this
  exact ⟨l, h3, of_decide_eq_true h4⟩

/-- A cycle of seven vertices with chords and a pendant vertex. -/
def wheelish : PGraph := built 8 26 [.add 1 0 2 0, .add 2 0 3 0, .add 3 0 4 0, .add 4 0 5 0, .add 5 0 6 0, .add 6 0 7 0, .add 7 0 1 0, .add 2 0 6 0,
  .add 1 0 4 0, .add 4 0 8 0]
theorem wheelish_reach : PReach wheelish := built_reach _ _ _ (by decide) (by decide) (by decide +kernel) (by decide)

theorem found_of {s : PGraph} {m k : Nat} (h : ((ofP s).gpEmbed true).map (fun r => (r.2, r.1.ic.minorType, r.1.p.g.M)) = some (.nonembeddable, m, k)) :
    ∃ t, (ofP s).gpEmbed true = some (t, .nonembeddable) ∧ t.ic.minorType = m ∧ t.p.g.M = k := by
  rw [Option.map_eq_some_iff] at h
  obtain ⟨⟨t, r⟩, h1, h2⟩ := h
  simp only [Prod.mk.injEq] at h2
  exact ⟨t, by rw [h1, h2.1], h2.2.1, h2.2.2⟩

/-- Hypotheses of C78 with each of the three obstructions: A in a graph of 14 edges, B in K2,3, E in K4 and in a graph of
10 edges that has a subdivision of K4 with 9. -/
example : (PReach clutter ∧ clutter.g.dfsNumbered = false ∧ IsSimple clutter.g ∧
      ∃ t, (ofP clutter).gpEmbed true = some (t, .nonembeddable) ∧ t.ic.minorType = 1 ∧ t.p.g.M = 6) ∧
    (PReach theta ∧ theta.g.dfsNumbered = false ∧ IsSimple theta.g ∧
      ∃ t, (ofP theta).gpEmbed true = some (t, .nonembeddable) ∧ t.ic.minorType = 2 ∧ t.p.g.M = 6) ∧
    (PReach four ∧ four.g.dfsNumbered = false ∧ IsSimple four.g ∧
      ∃ t, (ofP four).gpEmbed true = some (t, .nonembeddable) ∧ t.ic.minorType = 16 ∧ t.p.g.M = 6) ∧
    (PReach wheelish ∧ wheelish.g.dfsNumbered = false ∧ IsSimple wheelish.g ∧
      ∃ t, (ofP wheelish).gpEmbed true = some (t, .nonembeddable) ∧ t.ic.minorType = 16 ∧ t.p.g.M = 9) := by
  refine ⟨⟨clutter_reach, by decide +kernel, simple_of_lists (N := 8) (by decide +kernel) (by decide +kernel), found_of (by decide +kernel)⟩,
    ⟨theta_reach, by decide +kernel, simple_of_lists (N := 5) (by decide +kernel) (by decide +kernel), found_of (by decide +kernel)⟩,
    ⟨four_reach, by decide +kernel, simple_of_lists (N := 4) (by decide +kernel) (by decide +kernel), found_of (by decide +kernel)⟩,
    ⟨wheelish_reach, by decide +kernel, simple_of_lists (N := 8) (by decide +kernel) (by decide +kernel), found_of (by decide +kernel)⟩⟩

end Verif.Props
