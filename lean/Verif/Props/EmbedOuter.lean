import Verif.Props.OuterCertificates
import Verif.Props.EmbedTotal

/-
What the outcomes of outerplanar embedding mean: C74, C75.
-/
namespace Verif.Props
open Verif Verif.Graph Verif.DFS Verif.Embed Verif.EGraph Verif.Map Verif.Test Function

/-- The graph is outerplanar: a graph with the same number of vertices and edges and the same adjacencies, whose adjacency
lists are a plane embedding in which one face of each component meets all its vertices. -/
def IsOuterplanar (s : PGraph) : Prop :=
  ∃ p : PGraph, Consistent p ∧ p.g.N = s.g.N ∧ p.g.M = s.g.M ∧ SameAdjacencies p s ∧ PlaneEmbedding p ∧ OneFace p

/-- C74: if gp_Embed with the flags of outerplanar embedding is blocked, the graph has K4 or K2,3 as a minor. -/
theorem outer_blocked_minor {s : PGraph} (hr : PReach s) (hf : s.g.dfsNumbered = false) (hs : IsSimple s.g) {t : EGraph}
    (h : (ofP s).embed true = some (t, .blocked)) : HasMinor s.g 4 edgesK4 ∨ HasMinor s.g 5 edgesK23 := by
  obtain ⟨rot, B, num, inv, hI, S, hb, hap⟩ := embed_complete hr hf hs h
  have hV : ∀ a b, Adjacent s.g a b → (1 ≤ a ∧ a ≤ s.g.N) ∧ 1 ≤ b ∧ b ≤ s.g.N := fun a b k => adjacent_range hI k
  rcases S.bad_outer hI hb with ⟨T, hb⟩ | ⟨T, hb⟩
  · exact .inl (hasMinor_of hb hV (by decide) (by decide))
  · exact .inr (hasMinor_of hb hV (by decide) (by decide))

/-- C74: no graph that contains all its adjacencies has a plane embedding in which one face of each component meets all
its vertices. -/
theorem outer_blocked_no_embedding {s : PGraph} (hr : PReach s) (hf : s.g.dfsNumbered = false) (hs : IsSimple s.g) {t : EGraph}
    (h : (ofP s).embed true = some (t, .blocked)) {p : PGraph} (hc : Consistent p) (hN : p.g.N = s.g.N) (ha : SubAdjacencies s p)
    (hp : PlaneEmbedding p) : ¬ OneFace p := by
  intro hO
  obtain ⟨rot, B, num, inv, hI, S, hb, hap⟩ := embed_complete hr hf hs h
  obtain ⟨rot', hP⟩ := hc
  obtain ⟨π, hπ⟩ := renaming_of hI hP hN.symm ha
  exact no_outer_minor hI hP hπ hp hO (S.bad_outer hI hb)

/-- C74: a graph on which outerplanar embedding is blocked is not outerplanar. -/
theorem outer_blocked_verdict {s : PGraph} (hr : PReach s) (hf : s.g.dfsNumbered = false) (hs : IsSimple s.g) {t : EGraph}
    (h : (ofP s).embed true = some (t, .blocked)) : ¬ IsOuterplanar s := by
  rintro ⟨p, h1, h2, _, h3, h4, h5⟩
  exact outer_blocked_no_embedding hr hf hs h h1 h2 (subAdj_both.2 h3).2 h4 h5

/-- K2,3: planar, but not outerplanar. -/
def theta : PGraph := made 5 [.add 1 0 3 0, .add 1 0 4 0, .add 1 0 5 0, .add 2 0 3 0, .add 2 0 4 0, .add 2 0 5 0]
theorem theta_reach : PReach theta := made_reach _ _ (by decide) (by decide +kernel) (by decide)

/-- Hypotheses of C74, on a graph that planar embedding embeds. -/
example : PReach theta ∧ theta.g.dfsNumbered = false ∧ IsSimple theta.g ∧ (∃ t, (ofP theta).embed true = some (t, .blocked)) ∧
    ((ofP theta).embed false).map (·.2) = some .ok := by
  refine ⟨theta_reach, by decide +kernel, ?_, ?_, by decide +kernel⟩
  · have hN : theta.g.N = 5 := by decide +kernel
    have hd : ∀ w, w < 11 → 1 ≤ w → ((neighbors theta.g w).map fun l => decide (l.Nodup ∧ w ∉ l ∧ (∀ x ∈ l, x ≤ 5) ∧ (5 < w → l = []))) = some true := by
      decide +kernel
    rintro w ⟨h1, h2⟩
    rw [hN] at h2 ⊢
    have := hd w (by omega) h1
    rw [Option.map_eq_some_iff] at this
    obtain ⟨l, h3, h4⟩ := this
    exact ⟨l, h3, of_decide_eq_true h4⟩
  · have hd : ((ofP theta).embed true).map (·.2) = some .blocked := by decide +kernel
    rw [Option.map_eq_some_iff] at hd
    obtain ⟨⟨t, r⟩, h1, h2⟩ := hd
    exact ⟨t, by rw [h1]; simp only at h2; rw [h2]⟩

/-- C75: if gp_Embed with the flags of outerplanar embedding reports OK, the face of the first arc of each root meets all
vertices of its component. -/
theorem outer_ok_face {s : PGraph} (hr : PReach s) (hf : s.g.dfsNumbered = false) (hs : IsSimple s.g) {t : EGraph}
    (h : (ofP s).embed true = some (t, .ok)) : RootFace t.p := by
  obtain ⟨rot, B, num, inv, σ, L, cp, hI, S, J, hap⟩ := embed_sound hr hf hs h
  exact J.rootFace (S.pinv hI J) hap

/-- C75: gp_TestEmbedResultIntegrity with the flags of outerplanar embedding accepts the result, and one face of each
component meets all its vertices. -/
theorem outer_ok_accepted {s : PGraph} (hr : PReach s) (hf : s.g.dfsNumbered = false) (hs : IsSimple s.g) {t : EGraph}
    (h : (ofP s).embed true = some (t, .ok)) :
    (testEmbedResult 2 t.p s .ok).map (fun x => x.2.2) = some .ok ∧ OneFace t.p ∧ SameAdjacencies t.p s := by
  obtain ⟨h1, h2, h3, h4⟩ := embed_ok_plane hr hf hs h
  have hc := consistent_of_reach hr
  obtain ⟨s', t', r, e, _, hiff, hone⟩ := outerplanar_test_exact h1 hc h4.order (embed_ok_rooted hr hf hs h)
  have hun : s.g.sortedByDfi = false := by obtain ⟨rot, hI⟩ := hc; exact hI.unsorted hf
  have ha := sameAdjacencies_of_sorted hc h1 hun h2 h4
  have hok := hiff.2 ⟨ha, h3, outer_ok_face hr hf hs h⟩
  refine ⟨?_, hone hok, ha⟩
  rw [e, hok]; rfl

/-- C75: gp_Embed with the flags of outerplanar embedding decides outerplanarity. -/
theorem outer_decides {s : PGraph} (hr : PReach s) (hf : s.g.dfsNumbered = false) (hs : IsSimple s.g) :
    (IsOuterplanar s ↔ ∃ t, (ofP s).embed true = some (t, .ok)) ∧
    (¬ IsOuterplanar s ↔ ∃ t, (ofP s).embed true = some (t, .blocked)) := by
  have v1 : ∀ {t}, (ofP s).embed true = some (t, .ok) → IsOuterplanar s := by
    intro t h
    obtain ⟨h1, h2, h3, h4⟩ := embed_ok_plane hr hf hs h
    obtain ⟨_, k1, k2⟩ := outer_ok_accepted hr hf hs h
    exact ⟨t.p, h1, h4.order, h4.size, k2, h3, k1⟩
  obtain ⟨t, r, h, hn⟩ := embed_outcome hr hf hs true
  have hu : ∀ {t' r'}, (ofP s).embed true = some (t', r') → r' = r := by
    intro t' r' h'
    rw [h] at h'
    cases h'
    rfl
  rcases hn with rfl | rfl
  · refine ⟨⟨fun _ => ⟨t, h⟩, fun _ => v1 h⟩, fun hh => absurd (v1 h) hh, ?_⟩
    rintro ⟨t', h'⟩
    cases hu h'
  · have v2 := outer_blocked_verdict hr hf hs h
    refine ⟨⟨fun hh => absurd hh v2, ?_⟩, fun _ => ⟨t, h⟩, fun _ => v2⟩
    rintro ⟨t', h'⟩
    cases hu h'

/-- C75: gp_Embed with the flags of outerplanar embedding reports OK exactly if the graph has neither K4 nor K2,3 as a
minor. -/
theorem outer_ok_iff_minor {s : PGraph} (hr : PReach s) (hf : s.g.dfsNumbered = false) (hs : IsSimple s.g) :
    (∃ t, (ofP s).embed true = some (t, .ok)) ↔ ¬ HasMinor s.g 4 edgesK4 ∧ ¬ HasMinor s.g 5 edgesK23 := by
  constructor
  · intro hok
    obtain ⟨p, ⟨rot', hP⟩, hN, _, ha, hp, ho⟩ := (outer_decides hr hf hs).1.2 hok
    obtain ⟨rot, hI⟩ := consistent_of_reach hr
    obtain ⟨π, hπ⟩ := renaming_of hI hP hN.symm (subAdj_both.2 ha).2
    refine ⟨fun hm => ?_, fun hm => ?_⟩
    · exact no_outer_minor hI hP hπ hp ho (.inl (minor_of hI (by decide) hm))
    · exact no_outer_minor hI hP hπ hp ho (.inr (minor_of hI (by decide) hm))
  · rintro ⟨h5, h6⟩
    obtain ⟨t, r, h, hn⟩ := embed_outcome hr hf hs true
    rcases hn with rfl | rfl
    · exact ⟨t, h⟩
    · rcases outer_blocked_minor hr hf hs h with hh | hh
      · exact absurd hh h5
      · exact absurd hh h6

/-- Hypotheses of C75, on a graph with two blocks and a chord. -/
example : PReach fan ∧ fan.g.dfsNumbered = false ∧ IsSimple fan.g ∧ ∃ t, (ofP fan).embed true = some (t, .ok) := by
  refine ⟨fan_reach, by decide +kernel, ?_, ?_⟩
  · have hN : fan.g.N = 5 := by decide +kernel
    have hd : ∀ w, w < 11 → 1 ≤ w → ((neighbors fan.g w).map fun l => decide (l.Nodup ∧ w ∉ l ∧ (∀ x ∈ l, x ≤ 5) ∧ (5 < w → l = []))) = some true := by
      decide +kernel
    rintro w ⟨h1, h2⟩
    rw [hN] at h2 ⊢
    have := hd w (by omega) h1
    rw [Option.map_eq_some_iff] at this
    obtain ⟨l, h3, h4⟩ := this
    exact ⟨l, h3, of_decide_eq_true h4⟩
  · have hd : ((ofP fan).embed true).map (·.2) = some .ok := by decide +kernel
    rw [Option.map_eq_some_iff] at hd
    obtain ⟨⟨t, r⟩, h1, h2⟩ := hd
    exact ⟨t, by rw [h1]; simp only at h2; rw [h2]⟩

end Verif.Props
