import Verif.Props.Obstructions
import Verif.Spec.Features
import Verif.Test.Features

/-
Properties of the test of results for graphs with extensions (C67, C81).
-/
namespace Verif.Props
open Verif Verif.Graph Verif.Test Verif.DFS

/-- The extension of the search with these flags is attached. -/
def SearchAttached (fs : List Feature) (flags : Nat) : Prop :=
  (flags = 16 + 2 ∧ .k23 ∈ fs) ∨ (flags = 32 + 2 ∧ .k4 ∈ fs) ∨ (flags = 64 + 1 ∧ .k33 ∈ fs)

/-- The drawing extension is not attached. -/
def NoDrawing (fs : List Feature) : Prop := ∀ c, .draw c ∉ fs

theorem NoDrawing.tail {f : Feature} {fs : List Feature} (h : NoDrawing (f :: fs)) : NoDrawing fs :=
  fun c hc => h c (List.mem_cons_of_mem _ hc)

/-- The test of the search is the one called. -/
theorem obstructionWith_search {fs : List Feature} (hd : NoDrawing fs) {flags : Nat} (s t : PGraph) :
    (flags = 18 → .k23 ∈ fs → obstructionWith fs flags s t = partAnd onlyK23 s t) ∧
    (flags = 34 → .k4 ∈ fs → obstructionWith fs flags s t = partAnd onlyK4 s t) ∧
    (flags = 65 → .k33 ∈ fs → obstructionWith fs flags s t = partAnd onlyK33 s t) ∧
    (¬ SearchAttached fs flags → obstructionWith fs flags s t = checkObstruction flags s t) := by
  induction fs with
  | nil =>
    refine ⟨fun _ hc => by simp at hc, fun _ hc => by simp at hc, fun _ hc => by simp at hc, fun _ => rfl⟩
  | cons f fs ih =>
    obtain ⟨i1, i2, i3, i4⟩ := ih hd.tail
    have i4' : ¬ SearchAttached (f :: fs) flags → obstructionWith fs flags s t = checkObstruction flags s t := by
      intro hc
      refine i4 fun hc' => hc ?_
      rcases hc' with ⟨a, b⟩ | ⟨a, b⟩ | ⟨a, b⟩
      · exact .inl ⟨a, List.mem_cons_of_mem _ b⟩
      · exact .inr (.inl ⟨a, List.mem_cons_of_mem _ b⟩)
      · exact .inr (.inr ⟨a, List.mem_cons_of_mem _ b⟩)
    cases f with
    | draw c => exact absurd List.mem_cons_self (hd c)
    | k23 =>
      unfold obstructionWith
      refine ⟨fun e _ => if_pos e, fun e hm => ?_, fun e hm => ?_, fun hc => ?_⟩
      · rw [if_neg (by omega)]; exact i2 e (by simpa using hm)
      · rw [if_neg (by omega)]; exact i3 e (by simpa using hm)
      · rw [if_neg fun e => hc (.inl ⟨e, List.mem_cons_self⟩)]; exact i4' hc
    | k4 =>
      unfold obstructionWith
      refine ⟨fun e hm => ?_, fun e _ => if_pos e, fun e hm => ?_, fun hc => ?_⟩
      · rw [if_neg (by omega)]; exact i1 e (by simpa using hm)
      · rw [if_neg (by omega)]; exact i3 e (by simpa using hm)
      · rw [if_neg fun e => hc (.inr (.inl ⟨e, List.mem_cons_self⟩))]; exact i4' hc
    | k33 =>
      unfold obstructionWith
      refine ⟨fun e hm => ?_, fun e hm => ?_, fun e _ => if_pos e, fun hc => ?_⟩
      · rw [if_neg (by omega)]; exact i1 e (by simpa using hm)
      · rw [if_neg (by omega)]; exact i2 e (by simpa using hm)
      · rw [if_neg fun e => hc (.inr (.inr ⟨e, List.mem_cons_self⟩))]; exact i4' hc

/-- The test for a subgraph followed by another test. -/
theorem partAnd_spec {test : Graph → Option (Graph × Res)} {s t : PGraph} {rot rot' : Nat → List Nat} (hs : PInv s rot)
    (ht : PInv t rot') (hN : s.g.N = t.g.N) {P Q : Prop}
    (htest : ∀ F : Nat → Nat → Nat, (∀ w f, F w f / 2 = f / 2) → ∃ F' r, test (s.g.relabel F) = some (s.g.relabel F', r) ∧
      (∀ w f, F' w f / 2 = f / 2) ∧ (r = .ok ∨ r = .notok) ∧ (r = .ok → P) ∧ (Q → r = .ok)) :
    ∃ s' t' r, partAnd test s t = some (s', t', r) ∧ OnlyVisited s s' ∧ OnlyVisited t t' ∧ (r = .ok ∨ r = .notok) ∧
      (r = .ok → SubAdjacencies s t ∧ P) ∧ (SubAdjacencies s t → Q → r = .ok) := by
  obtain ⟨s1, t1, ans, e1, m1, m2, h1⟩ := testSubgraph_adj hs ht hN
  unfold partAnd
  rw [e1]
  simp only [Option.bind_eq_bind, Option.bind_some]
  cases ans with
  | false =>
    refine ⟨s1, t1, .notok, rfl, onlyVisited_of_marked m1, onlyVisited_of_marked m2, .inr rfl,
      fun hc => (by cases hc), fun hc => ?_⟩
    have := h1.2 hc
    cases this
  | true =>
    simp only [Bool.not_true, Bool.false_eq_true, if_false]
    obtain ⟨F, hF, rfl⟩ := m1
    obtain ⟨F', r, e2, f1, f2, f3, f4⟩ := htest F hF
    have e2' : test (s.setG (s.g.relabel F)).g = some (s.g.relabel F', r) := e2
    rw [e2']
    exact ⟨s.setG (s.g.relabel F'), t1, r, rfl, onlyVisited_relabel s f1, onlyVisited_of_marked m2, f2,
      fun hr => ⟨h1.1 rfl, f3 hr⟩, fun _ hq => f4 hq⟩

/-- Without its extension a search has no test of its own, and the core refuses. -/
theorem checkObstruction_other {flags : Nat} (h1 : flags ≠ 1) (h2 : flags ≠ 2) {s t : PGraph} {rot rot' : Nat → List Nat}
    (hs : PInv s rot) (ht : PInv t rot') (hN : s.g.N = t.g.N) :
    ∃ s' t', checkObstruction flags s t = some (s', t', .notok) ∧ OnlyVisited s s' ∧ OnlyVisited t t' := by
  obtain ⟨s1, t1, ans, e1, m1, m2, -⟩ := testSubgraph_adj hs ht hN
  unfold checkObstruction
  rw [e1]
  simp only [Option.bind_eq_bind, Option.bind_some]
  cases ans with
  | false => exact ⟨s1, t1, rfl, onlyVisited_of_marked m1, onlyVisited_of_marked m2⟩
  | true =>
    simp only [Bool.not_true, Bool.false_eq_true, if_false]
    rw [if_neg h1, if_neg h2]
    exact ⟨s1, t1, rfl, onlyVisited_of_marked m1, onlyVisited_of_marked m2⟩

/-- C67. The test of the result of a search for K2,3, K4 or K3,3 that reports a homeomorph is defined on consistent graphs
of the same order, whichever searches are attached and in whichever order, and changes at most visited marks. It accepts
exactly if the extension of the search is attached, the adjacencies of the result are adjacencies of the original graph
and the result is a subdivision of the graph sought, with or without isolated vertices; that an accepted K2,3 is one holds
of results without loops. -/
theorem search_result_exact {fs : List Feature} (hd : NoDrawing fs) {flags n : Nat} {E : List (Nat × Nat)}
    (hk : soughtGraph flags = some (n, E)) {s t : PGraph} (hs : Consistent s) (ht : Consistent t) (hN : s.g.N = t.g.N) :
    ∃ s' t' r, testResultWith fs flags s t .nonembeddable = some (s', t', r) ∧ OnlyVisited s s' ∧ OnlyVisited t t' ∧
      (r = .nonembeddable ∨ r = .notok) ∧
      (r = .nonembeddable → SearchAttached fs flags ∧ SubAdjacencies s t) ∧
      (r = .nonembeddable → (E = edgesK23 → NoLoops s.g) → IsSubdivision s.g n E) ∧
      (SearchAttached fs flags → SubAdjacencies s t → IsSubdivision s.g n E → r = .nonembeddable) := by
  obtain ⟨rot, hs⟩ := hs
  obtain ⟨rot', ht⟩ := ht
  obtain ⟨i1, i2, i3, i4⟩ := obstructionWith_search hd (flags := flags) s t
  have hfl : (flags = 18 ∧ n = 5 ∧ E = edgesK23) ∨ (flags = 34 ∧ n = 4 ∧ E = edgesK4) ∨
      (flags = 65 ∧ n = 6 ∧ E = edgesK33) := by
    unfold soughtGraph at hk
    split_ifs at hk with c1 c2 c3
    · cases hk; exact .inl ⟨c1, rfl, rfl⟩
    · cases hk; exact .inr (.inl ⟨c2, rfl, rfl⟩)
    · cases hk; exact .inr (.inr ⟨c3, rfl, rfl⟩)
  by_cases ha : SearchAttached fs flags
  · have key : ∃ s' t' r, obstructionWith fs flags s t = some (s', t', r) ∧ OnlyVisited s s' ∧ OnlyVisited t t' ∧
        (r = .ok ∨ r = .notok) ∧
        (r = .ok → SubAdjacencies s t ∧ ((E = edgesK23 → NoLoops s.g) → IsSubdivision s.g n E)) ∧
        (SubAdjacencies s t → IsSubdivision s.g n E → r = .ok) := by
      have ha' := ha
      rcases hfl with ⟨rfl, rfl, rfl⟩ | ⟨rfl, rfl, rfl⟩ | ⟨rfl, rfl, rfl⟩
      · rw [i1 rfl (by rcases ha' with ⟨-, b⟩ | ⟨a, -⟩ | ⟨a, -⟩ <;> first | exact b | omega)]
        refine partAnd_spec hs ht hN fun F hF => ?_
        obtain ⟨F', r, e, f1, f2, f3, f4⟩ := onlyK23_spec hs.inv hs.prim hF
        exact ⟨F', r, e, f1, f2, fun hr hl => f3 hr (loopFree_of hs.inv (hl rfl)), f4⟩
      · rw [i2 rfl (by rcases ha' with ⟨a, -⟩ | ⟨-, b⟩ | ⟨a, -⟩ <;> first | exact b | omega)]
        refine partAnd_spec hs ht hN fun F hF => ?_
        obtain ⟨F', r, e, f1, f2, f3⟩ := onlyK4_spec hs.inv hs.prim hF
        exact ⟨F', r, e, f1, f2, fun hr _ => f3.1 hr, f3.2⟩
      · rw [i3 rfl (by rcases ha' with ⟨a, -⟩ | ⟨a, -⟩ | ⟨-, b⟩ <;> first | exact b | omega)]
        refine partAnd_spec hs ht hN fun F hF => ?_
        obtain ⟨F', r, e, f1, f2, f3⟩ := onlyK33_spec hs.inv hs.prim hF
        exact ⟨F', r, e, f1, f2, fun hr _ => f3.1 hr, f3.2⟩
    obtain ⟨s', t', r, e, o1, o2, o3, o4, o5⟩ := key
    unfold testResultWith
    dsimp only
    rw [e]
    refine ⟨s', t', _, rfl, o1, o2, ?_⟩
    rcases o3 with rfl | rfl
    · exact ⟨.inl rfl, fun _ => ⟨ha, (o4 rfl).1⟩, fun _ => (o4 rfl).2, fun _ _ _ => rfl⟩
    · refine ⟨.inr rfl, fun hc => (by cases hc), fun hc => (by cases hc), fun _ h1 h2 => ?_⟩
      have := o5 h1 h2
      cases this
  · obtain ⟨s', t', e, o1, o2⟩ := checkObstruction_other (flags := flags) (by omega) (by omega) hs ht hN
    unfold testResultWith
    dsimp only
    rw [i4 ha, e]
    exact ⟨s', t', .notok, rfl, o1, o2, .inr rfl, fun hc => (by cases hc), fun hc => (by cases hc), fun hc => absurd hc ha⟩

/-- The hypothesis on loops cannot be left out: a graph with loops on four vertices is accepted as a K2,3 homeomorph. -/
theorem search_loops_false : ∃ s : PGraph, PReach s ∧
    (testResultWith [.k23] 18 s s .nonembeddable).map (fun x => x.2.2) = some .nonembeddable ∧
    ¬ IsSubdivision s.g 5 edgesK23 := by
  refine ⟨loops, loops_reach, by decide +kernel, ?_⟩
  rintro ⟨branch, path, hn, hm, hnb⟩
  have := (IsSubdivision.card hn hm).1
  exact absurd this (by decide +kernel)

/-- The tests of embeddings of the core are called. -/
theorem embeddingWith_core {flags : Nat} (hf : flags = 1 ∨ flags = 2) : ∀ {fs : List Feature}, NoDrawing fs →
    ∀ s t : PGraph, embeddingWith fs flags s t = checkEmbedding flags s t
  | [], _, _, _ => rfl
  | .draw c :: _, hd, _, _ => absurd List.mem_cons_self (hd c)
  | .k23 :: _, hd, s, t => by unfold embeddingWith; rw [if_neg (by omega)]; exact embeddingWith_core hf hd.tail s t
  | .k33 :: _, hd, s, t => by unfold embeddingWith; rw [if_neg (by omega)]; exact embeddingWith_core hf hd.tail s t
  | .k4 :: _, hd, s, t => by unfold embeddingWith; rw [if_neg (by omega)]; exact embeddingWith_core hf hd.tail s t

/-- C81, without what `drawing_test_false` and `drawing_refuses_false` refute. For results of planarity and
outerplanarity tests the verdict and the graphs left are those of a graph without extensions, whichever searches are
attached and in whichever order. -/
theorem searches_keep_tests_partial {fs : List Feature} (hd : NoDrawing fs) {flags : Nat} (hf : flags = 1 ∨ flags = 2)
    (s t : PGraph) (embedResult : Res) :
    testResultWith fs flags s t embedResult = testEmbedResult flags s t embedResult := by
  obtain ⟨-, -, -, i4⟩ := obstructionWith_search hd (flags := flags) s t
  have hn : ¬ SearchAttached fs flags := by
    rintro (⟨a, -⟩ | ⟨a, -⟩ | ⟨a, -⟩) <;> omega
  unfold testResultWith testEmbedResult
  cases embedResult with
  | notok => rfl
  | ok => exact embeddingWith_core hf hd s t
  | nonembeddable => dsimp only; rw [i4 hn]

/-- C81 is false: with the drawing extension attached the test accepts the prism, which is planar, as an obstruction to
planarity of a graph of which it is not even a part. -/
theorem drawing_test_false : ∃ s t : PGraph, PReach s ∧ PReach t ∧ s.g.N = t.g.N ∧
    (∀ c flags, (testResultWith [.draw c] flags s t .nonembeddable).map (fun x => x.2.2) = some .nonembeddable) ∧
    ¬ SubAdjacencies s t ∧ ¬ IsSubdivision s.g 5 edgesK5 ∧ ¬ IsSubdivision s.g 6 edgesK33 := by
  have ht : PReach (made 6 []) := made_reach _ _ (by decide) (by decide +kernel) (by decide)
  refine ⟨prism, made 6 [], prism_reach, ht, by decide +kernel, fun c flags => rfl, ?_, ?_⟩
  · obtain ⟨rot, hs⟩ := prism_reach.inv
    obtain ⟨rot', ht'⟩ := ht.inv
    obtain ⟨s1, t1, ans, e1, -, -, h1⟩ := testSubgraph_adj hs ht' (by decide +kernel)
    intro hc
    have h2 : (testSubgraph prism (made 6 [])).map (fun x => x.2.2) = some false := by decide +kernel
    rw [e1, h1.2 hc] at h2
    cases h2
  · obtain ⟨s', t', r, h1, -, -, -, h2⟩ := kuratowski_test_exact prism_reach.inv prism_reach.inv rfl
    have h3 : (testEmbedResult 1 prism prism .nonembeddable).map (fun x => x.2.2) = some .notok := by decide +kernel
    rw [h1] at h3
    have h3 : r = .notok := Option.some.inj h3
    have hsub : SubAdjacencies prism prism := by
      unfold SubAdjacencies
      rw [if_pos rfl]
      exact fun _ _ h => h
    rw [← not_or]
    intro hc
    have := h2.2 ⟨hsub, hc⟩
    rw [h3] at this
    cases this

/-- And with the drawing extension attached, but no drawing computed because the embedding was made with
EMBEDFLAGS_PLANAR, the test refuses a plane embedding that it accepts without the extension. -/
theorem drawing_refuses_false : ∃ s t : PGraph, PReach s ∧ PReach t ∧ s.g.N = t.g.N ∧
    (testEmbedResult 1 s t .ok).map (fun x => x.2.2) = some .ok ∧
    (testResultWith [.draw {}] 1 s t .ok).map (fun x => x.2.2) = some .notok := by
  obtain ⟨h1, -, h2⟩ := numbered_ok planeK4_reach (by decide +kernel)
  exact ⟨numbered planeK4, planeK4, h1, planeK4_reach, h2, by decide +kernel, by decide +kernel⟩

-- The hypotheses are met by all three searches attached, and both answers occur: each search accepts its own graph and no
-- other, none accepts without its extension.
example : NoDrawing [.k4, .k23, .k33] ∧ SearchAttached [.k4, .k23, .k33] 18 ∧ SearchAttached [.k4, .k23, .k33] 34 ∧
    SearchAttached [.k4, .k23, .k33] 65 ∧ ¬ SearchAttached [.k4, .k33] 18 ∧ soughtGraph 18 = some (5, edgesK23) ∧
    soughtGraph 34 = some (4, edgesK4) ∧ soughtGraph 65 = some (6, edgesK33) ∧
    Consistent subK33 ∧ Consistent subK23 ∧ Consistent subK4 := by
  refine ⟨fun c hc => ?_, .inl ⟨rfl, by simp⟩, .inr (.inl ⟨rfl, by simp⟩), .inr (.inr ⟨rfl, by simp⟩), ?_, rfl, rfl, rfl,
    subK33_reach.inv, subK23_reach.inv, subK4_reach.inv⟩
  · simp at hc
  · rintro (⟨-, a⟩ | ⟨a, -⟩ | ⟨a, -⟩)
    · simp at a
    · cases a
    · cases a
example : (testResultWith [.k4, .k23, .k33] 65 subK33 subK33 .nonembeddable).map (fun x => x.2.2) = some .nonembeddable ∧
    (testResultWith [.k4, .k23, .k33] 18 subK23 subK23 .nonembeddable).map (fun x => x.2.2) = some .nonembeddable ∧
    (testResultWith [.k4, .k23, .k33] 34 subK4 subK4 .nonembeddable).map (fun x => x.2.2) = some .nonembeddable ∧
    (testResultWith [.k4, .k23, .k33] 65 subK5 subK5 .nonembeddable).map (fun x => x.2.2) = some .notok ∧
    (testResultWith [.k4, .k23, .k33] 18 subK4 subK4 .nonembeddable).map (fun x => x.2.2) = some .notok ∧
    (testResultWith [.k4, .k33] 18 subK23 subK23 .nonembeddable).map (fun x => x.2.2) = some .notok := by
  refine ⟨?_, ?_, ?_, ?_, ?_, ?_⟩ <;> decide +kernel
-- Acceptance gives the subdivision.
example : IsSubdivision subK33.g 6 edgesK33 := by
  obtain ⟨s', t', r, h1, -, -, -, -, h2, -⟩ := search_result_exact (fs := [.k4, .k33]) (fun c hc => by simp at hc)
    (flags := 65) rfl subK33_reach.inv subK33_reach.inv rfl
  have h3 : (testResultWith [.k4, .k33] 65 subK33 subK33 .nonembeddable).map (fun x => x.2.2) = some .nonembeddable := by
    decide +kernel
  rw [h1] at h3
  exact h2 (Option.some.inj h3) fun hc => by exact absurd hc (by decide)
-- The searches do not disturb the planarity test.
example : (testResultWith [.k33, .k4] 1 subK5 subK5 .nonembeddable).map (fun x => x.2.2) = some .nonembeddable ∧
    (testResultWith [.k33, .k4] 1 (numbered planeK4) planeK4 .ok).map (fun x => x.2.2) = some .ok := by
  constructor <;> decide +kernel

end Verif.Props
