import Verif.Props.Tests
import Verif.Test.ThetaSub

/-
Properties of the tests of obstructions (C26, C27, C28).
-/
namespace Verif.Props
open Verif Verif.Graph Verif.Test Verif.DFS

theorem onlyVisited_relabel (s : PGraph) {F : Nat → Nat → Nat} (hF : ∀ w f, F w f / 2 = f / 2) :
    OnlyVisited s (s.setG (s.g.relabel F)) := onlyVisited_of_marked ⟨F, hF, rfl⟩

/-- C26 and C28. The test of an obstruction to planarity is defined on consistent graphs of the same order, changes at
most visited marks, and accepts exactly the subdivisions of K5 and K3,3, with or without isolated vertices, whose
adjacencies are adjacencies of the original graph. -/
theorem kuratowski_test_exact {s t : PGraph} (hs : Consistent s) (ht : Consistent t) (hN : s.g.N = t.g.N) :
    ∃ s' t' r, testEmbedResult 1 s t .nonembeddable = some (s', t', r) ∧ OnlyVisited s s' ∧ OnlyVisited t t' ∧
      (r = .nonembeddable ∨ r = .notok) ∧
      (r = .nonembeddable ↔ SubAdjacencies s t ∧ (IsSubdivision s.g 5 edgesK5 ∨ IsSubdivision s.g 6 edgesK33)) := by
  obtain ⟨rot, hs⟩ := hs
  obtain ⟨rot', ht⟩ := ht
  obtain ⟨s1, t1, ans, e1, m1, m2, h1⟩ := testSubgraph_adj hs ht hN
  unfold testEmbedResult checkObstruction
  rw [e1]
  simp only [Option.bind_eq_bind, Option.bind_some]
  cases ans with
  | false =>
    refine ⟨s1, t1, .notok, rfl, onlyVisited_of_marked m1, onlyVisited_of_marked m2, .inr rfl,
      fun hc => (by cases hc), fun hc => ?_⟩
    have := h1.2 hc.1
    cases this
  | true =>
    simp only [Bool.not_true, Bool.false_eq_true, if_false, if_true]
    obtain ⟨F, hF, rfl⟩ := m1
    obtain ⟨F', r, e2, f1, f2, f3⟩ := checkKuratowski_spec hs.inv hs.prim hF
    have e2' : checkKuratowski (s.setG (s.g.relabel F)).g = some (s.g.relabel F', r) := e2
    rw [e2']
    refine ⟨s.setG (s.g.relabel F'), t1, _, rfl, onlyVisited_relabel s f1, onlyVisited_of_marked m2, ?_, ?_⟩
    · rcases f2 with rfl | rfl
      · exact .inl rfl
      · exact .inr rfl
    · rw [← f3]
      rcases f2 with rfl | rfl
      · exact ⟨fun _ => ⟨h1.1 rfl, rfl⟩, fun _ => rfl⟩
      · exact ⟨fun hc => (by cases hc), fun hc => (by cases hc.2)⟩

theorem loopFree_of {g : Graph} {rot : Nat → List Nat} (h : Inv g rot) (hl : NoLoops g) : LoopFree g rot := by
  intro u e he hc
  exact hl u ((adjacent_arc h).2 ⟨e, (arcTo_iff h).2 ⟨he, hc⟩⟩)

/-- C27, without what `outerplanar_obstruction_false` refutes. The test of an obstruction to outerplanarity is defined on
consistent graphs of the same order, changes at most visited marks, accepts all subdivisions of K4 and K2,3 whose
adjacencies are adjacencies of the original graph, and of the graphs without loops only these. -/
theorem outerplanar_obstruction_partial {s t : PGraph} (hs : Consistent s) (ht : Consistent t) (hN : s.g.N = t.g.N) :
    ∃ s' t' r, testEmbedResult 2 s t .nonembeddable = some (s', t', r) ∧ OnlyVisited s s' ∧ OnlyVisited t t' ∧
      (r = .nonembeddable ∨ r = .notok) ∧ (r = .nonembeddable → SubAdjacencies s t) ∧
      (NoLoops s.g → r = .nonembeddable → IsSubdivision s.g 4 edgesK4 ∨ IsSubdivision s.g 5 edgesK23) ∧
      (SubAdjacencies s t → IsSubdivision s.g 4 edgesK4 ∨ IsSubdivision s.g 5 edgesK23 → r = .nonembeddable) := by
  obtain ⟨rot, hs⟩ := hs
  obtain ⟨rot', ht⟩ := ht
  obtain ⟨s1, t1, ans, e1, m1, m2, h1⟩ := testSubgraph_adj hs ht hN
  unfold testEmbedResult checkObstruction
  rw [e1]
  simp only [Option.bind_eq_bind, Option.bind_some]
  cases ans with
  | false =>
    refine ⟨s1, t1, .notok, rfl, onlyVisited_of_marked m1, onlyVisited_of_marked m2, .inr rfl,
      fun hc => (by cases hc), fun _ hc => (by cases hc), fun hc => ?_⟩
    have := h1.2 hc
    cases this
  | true =>
    rw [if_neg (by simp), if_neg (by decide), if_pos trivial]
    obtain ⟨F, hF, rfl⟩ := m1
    obtain ⟨F', r, e2, f1, f2, f3, f4⟩ := checkOuterplanar_spec hs.inv hs.prim hF
    have e2' : checkOuterplanar (s.setG (s.g.relabel F)).g = some (s.g.relabel F', r) := e2
    rw [e2']
    refine ⟨s.setG (s.g.relabel F'), t1, _, rfl, onlyVisited_relabel s f1, onlyVisited_of_marked m2, ?_, fun _ => h1.1 rfl,
      ?_, ?_⟩
    · rcases f2 with rfl | rfl
      · exact .inl rfl
      · exact .inr rfl
    · intro hl hr
      refine f3 ?_ (loopFree_of hs.inv hl)
      rcases f2 with rfl | rfl
      · rfl
      · cases hr
    · intro _ hsub
      rw [f4 hsub]
      rfl

/-- A graph of `N` vertices and room for `cap` arcs, built by a script. -/
def built (N cap : Nat) (ops : List Op) : PGraph :=
  { g := ((exec (Graph.init N cap) ops).map Prod.fst).getD (Graph.init N cap) }

theorem built_reach (N cap : Nat) (ops : List Op) (hN : 0 < N) (hc : cap % 2 = 0)
    (hv : validRunB (Graph.init N cap) ops = true) (hp : primRunB N ops = true) : PReach (built N cap ops) := by
  unfold built
  rcases h : exec (Graph.init N cap) ops with _ | ⟨g, outs⟩
  · exact .init N cap hN hc
  · exact preach_exec ops (s := { g := Graph.init N cap }) (.init N cap hN hc) rfl hv hp h

/-- K5 with an edge subdivided, and an isolated vertex. -/
def subK5 : PGraph := built 7 22 [.add 1 0 2 0, .add 1 0 3 0, .add 1 1 4 0, .add 1 0 5 0, .add 2 0 3 1, .add 2 0 4 0,
  .add 2 0 5 0, .add 3 0 4 0, .add 3 1 5 0, .add 4 0 6 0, .add 6 0 5 0]
/-- K3,3 with an edge subdivided twice; the sides are 1, 4, 6 and 2, 3, 5. -/
def subK33 : PGraph := built 8 22 [.add 1 0 2 0, .add 1 0 3 0, .add 1 1 5 0, .add 4 0 2 0, .add 4 0 3 1, .add 4 0 5 0,
  .add 6 0 2 0, .add 6 0 3 0, .add 6 1 7 0, .add 7 0 8 0, .add 8 0 5 0]
/-- The prism: two triangles 1-2-3 and 4-5-6 joined by a matching. -/
def prism : PGraph := built 6 18 [.add 1 0 2 0, .add 2 0 3 0, .add 3 0 1 0, .add 4 0 5 0, .add 5 0 6 0, .add 6 0 4 0,
  .add 1 0 4 0, .add 2 0 5 0, .add 3 0 6 0]
/-- K4 with an edge subdivided. -/
def subK4 : PGraph := built 5 14 [.add 1 0 2 0, .add 1 0 3 0, .add 1 1 4 0, .add 2 0 3 1, .add 2 0 4 0, .add 3 0 5 0, .add 5 0 4 0]
/-- K2,3 with an edge subdivided, and an isolated vertex. -/
def subK23 : PGraph := built 7 14 [.add 5 0 1 0, .add 1 0 3 0, .add 5 0 2 0, .add 2 1 3 0, .add 5 1 4 0, .add 4 0 6 0, .add 6 0 3 0]
/-- Two vertices with a loop each, a path of two edges between them, and a fourth vertex with a loop. -/
def loops : PGraph := built 4 10 [.add 1 0 1 0, .add 2 0 2 0, .add 1 0 3 0, .add 3 0 2 0, .add 4 0 4 0]

theorem subK5_reach : PReach subK5 := built_reach _ _ _ (by decide) (by decide) (by decide +kernel) (by decide)
theorem subK33_reach : PReach subK33 := built_reach _ _ _ (by decide) (by decide) (by decide +kernel) (by decide)
theorem prism_reach : PReach prism := built_reach _ _ _ (by decide) (by decide) (by decide +kernel) (by decide)
theorem subK4_reach : PReach subK4 := built_reach _ _ _ (by decide) (by decide) (by decide +kernel) (by decide)
theorem subK23_reach : PReach subK23 := built_reach _ _ _ (by decide) (by decide) (by decide +kernel) (by decide)
theorem loops_reach : PReach loops := built_reach _ _ _ (by decide) (by decide) (by decide +kernel) (by decide)

/-- A subdivision of a graph with `n` vertices has at least `n` vertices, and with `n` vertices all are branch vertices. -/
theorem IsSubdivision.card {g : Graph} {n : Nat} {branch : Nat → Nat} {L : List Nat}
    (hn : ((List.range n).map branch ++ L).Nodup) (hm : ∀ w ∈ (List.range n).map branch ++ L, 1 ≤ w ∧ w ≤ g.N) :
    n ≤ g.N ∧ (g.N ≤ n → ∀ w, 1 ≤ w → w ≤ g.N → ∃ i, i < n ∧ branch i = w) := by
  have hn' := (List.nodup_append.1 hn).1
  have hsub : ((List.range n).map branch).toFinset ⊆ Finset.Icc 1 g.N := by
    intro w hw
    exact Finset.mem_Icc.2 (hm w (List.mem_append_left _ (List.mem_toFinset.1 hw)))
  have hc : ((List.range n).map branch).toFinset.card = n := by rw [List.toFinset_card_of_nodup hn']; simp
  have hle := Finset.card_le_card hsub
  rw [hc, Nat.card_Icc] at hle
  refine ⟨by omega, fun hN w h1 h2 => ?_⟩
  have he := Finset.eq_of_subset_of_card_le hsub (by rw [hc, Nat.card_Icc]; omega)
  have hw : w ∈ ((List.range n).map branch).toFinset := by rw [he]; exact Finset.mem_Icc.2 ⟨h1, h2⟩
  obtain ⟨i, hi, rfl⟩ := List.mem_map.1 (List.mem_toFinset.1 hw)
  exact ⟨i, List.mem_range.1 hi, rfl⟩

/-- C27 is false: the test accepts a graph with loops on four vertices that has neither K4 nor K2,3. -/
theorem outerplanar_obstruction_false : ∃ s : PGraph, PReach s ∧
    (testEmbedResult 2 s s .nonembeddable).map (fun x => x.2.2) = some .nonembeddable ∧
    ¬ IsSubdivision s.g 4 edgesK4 ∧ ¬ IsSubdivision s.g 5 edgesK23 := by
  refine ⟨loops, loops_reach, by decide +kernel, ?_, ?_⟩
  · obtain ⟨rot, hi⟩ := loops_reach.inv
    rintro ⟨branch, path, hn, hm, hnb⟩
    obtain ⟨i, hi', hb⟩ := (IsSubdivision.card hn hm).2 (by decide +kernel) 4 (by decide) (by decide +kernel)
    have hd := sub_deg_branch hi.inv hn hm hnb (by decide) hi'
    have hl : neighbors loops.g 4 = some [4, 4] := by decide +kernel
    rw [neighbors_eq hi.inv (by decide +kernel)] at hl
    have hl' := congrArg List.length (Option.some.inj hl)
    rw [List.length_map] at hl'
    rw [hb, hl'] at hd
    have key : ∀ i < 4, 2 ≠ (edgesK4.filter fun p => decide (p.1 = i)).length +
        (edgesK4.filter fun p => decide (p.2 = i)).length := by decide
    exact key i hi' hd
  · rintro ⟨branch, path, hn, hm, hnb⟩
    have := (IsSubdivision.card hn hm).1
    exact absurd this (by decide +kernel)

-- A subdivided K5 with an isolated vertex and a subdivided K3,3 meet the hypotheses and are accepted, the prism, which has
-- the degrees of K3,3, is not, nor is the subdivided K5 as an obstruction of another graph.
example : Consistent subK5 ∧ Consistent subK33 ∧ Consistent prism := ⟨subK5_reach.inv, subK33_reach.inv, prism_reach.inv⟩
example : (testEmbedResult 1 subK5 subK5 .nonembeddable).map (fun x => x.2.2) = some .nonembeddable := by decide +kernel
example : (testEmbedResult 1 subK33 subK33 .nonembeddable).map (fun x => x.2.2) = some .nonembeddable := by decide +kernel
example : (testEmbedResult 1 prism prism .nonembeddable).map (fun x => x.2.2) = some .notok := by decide +kernel
example : (testEmbedResult 1 subK5 subK23 .nonembeddable).map (fun x => x.2.2) = some .notok := by decide +kernel
example : subK5.g.N = subK23.g.N := by decide +kernel
-- Both sides of the equivalence are met: the acceptance gives the subdivisions.
example : IsSubdivision subK5.g 5 edgesK5 ∨ IsSubdivision subK5.g 6 edgesK33 := by
  obtain ⟨s', t', r, h1, -, -, -, h2⟩ := kuratowski_test_exact subK5_reach.inv subK5_reach.inv rfl
  have h3 : (testEmbedResult 1 subK5 subK5 .nonembeddable).map (fun x => x.2.2) = some .nonembeddable := by decide +kernel
  rw [h1] at h3
  exact (h2.1 (Option.some.inj h3)).2
-- The same for the obstructions to outerplanarity.
example : Consistent subK4 ∧ Consistent subK23 := ⟨subK4_reach.inv, subK23_reach.inv⟩
example : NoLoops subK4.g := by
  intro u hu
  obtain ⟨rot, hi⟩ := subK4_reach.inv
  obtain ⟨e, he⟩ := (adjacent_arc hi.inv).1 hu
  have hp := hi.prim u e ((arcTo_iff hi.inv).1 he).1
  have hN : subK4.g.N = 5 := by decide +kernel
  rw [hN] at hp
  obtain ⟨l, h1, h2⟩ := hu
  have key : ∀ u < 6, 1 ≤ u → ((neighbors subK4.g u).getD [u]).contains u = false := by decide +kernel
  have k := key u (by omega) hp.1
  rw [h1] at k
  exact absurd (List.contains_iff_mem.2 h2) (Bool.eq_false_iff.1 k)
example : (testEmbedResult 2 subK4 subK4 .nonembeddable).map (fun x => x.2.2) = some .nonembeddable := by decide +kernel
example : (testEmbedResult 2 subK23 subK23 .nonembeddable).map (fun x => x.2.2) = some .nonembeddable := by decide +kernel
example : (testEmbedResult 2 prism prism .nonembeddable).map (fun x => x.2.2) = some .notok := by decide +kernel

end Verif.Props
