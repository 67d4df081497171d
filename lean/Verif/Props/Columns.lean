import Verif.Draw.Whole
import Verif.Props.Rows

/-
C69, C70: the columns computed for the edges and the drawing as a whole (graphDrawPlanar.c 45-63, 294-592).
-/
namespace Verif
namespace Props
open Graph Draw PGraph DFS

/-- C70: let the placement of every vertex be known, no edge be a loop and no edge slot be free. If with the rows computed
every vertex but the roots has a neighbour in a higher row, _ComputeVisibilityRepresentation returns OK and lays out the
graph in these rows; otherwise it returns NOTOK. -/
theorem drawing_computed {s : PGraph} {par : Nat → Nat} {c : Ctx} (h : Consistent s) (hF : Forest s id par)
    (hC : ∀ v, IsPrimary s v → (c.VI v).ancestorChild ≤ s.g.N) (hT : ∀ v, IsPrimary s v → par v ≠ 0 → ¬ MarkedTie c v)
    (hl : NoLoops s.g) (hh : s.g.holes = []) :
    ∃ s' c1, computeRows s c = some (s', some c1) ∧
      ((¬ AllHang s par c1 ∧ computeDrawing s c = some (s', none)) ∨
        (AllHang s par c1 ∧ ∃ c', computeDrawing s c = some (s', some c') ∧ Layout s.g c' ∧
          (∀ v, vrow c' v = vrow c1 v) ∧
          ∀ v, c'.VI v = { c1.VI v with start := (c'.VI v).start, stop := (c'.VI v).stop })) := by
  obtain ⟨s', c1, h1, h2, h3, -, -⟩ := rows_permutation h hF hC hT
  obtain ⟨rot, hp⟩ := h
  obtain ⟨stk, res, k1, k2⟩ := computeRows_spec hp hF hC
  rw [h1] at k1
  obtain ⟨rfl, rfl⟩ := Prod.mk.inj (Option.some.inj k1)
  rcases k2 with ⟨k2, -⟩ | ⟨c1', L, k2, hG, hL⟩
  · cases k2
  cases k2
  refine ⟨_, c1, h1, ?_⟩
  have hp' := pinv_ws hp stk
  obtain ⟨res, j1, j2⟩ := rest_spec hp' (forest_ws hp hF stk) (fun u ha => by
      obtain ⟨e, he⟩ := (adjacent_arc hp'.inv).1 ha
      exact hl u ((adjacent_arc hp.inv).2 ⟨e, (arcTo_ws hp stk).1 he⟩)) hh h2
    (fun v y hv hv0 hy ha => hG.top v ((hL v).2 hv) hv0 y ((hL y).2 hy) ha)
  unfold computeDrawing
  rw [if_neg (by simp [hh]), h1]
  simp only [Option.bind_eq_bind, Option.bind_some]
  rw [j1]
  rcases j2 with ⟨rfl, j2⟩ | ⟨j2, c2, c3, c', rfl, j3, j4, j5, j6⟩
  · exact .inl ⟨fun hA => j2 ((allHang_ws hp stk).2 hA), rfl⟩
  · refine .inr ⟨(allHang_ws hp stk).1 j2, c', ?_, layout_ws hp stk j5, fun v => ?_, j6⟩
    · simp only [Option.bind_some, j3, j4, Option.pure_def]
    · unfold vrow
      rw [j6 v]

/-- C70: with an unresolved tie or a free edge slot it returns NOTOK. -/
theorem drawing_refused {s : PGraph} {par : Nat → Nat} {c : Ctx} (h : Consistent s) (hF : Forest s id par)
    (hC : ∀ v, IsPrimary s v → (c.VI v).ancestorChild ≤ s.g.N)
    (hx : s.g.holes ≠ [] ∨ ∃ v, IsPrimary s v ∧ par v ≠ 0 ∧ MarkedTie c v) : ∃ s', computeDrawing s c = some (s', none) := by
  unfold computeDrawing
  by_cases hh : s.g.holes = []
  · rw [if_neg (by simp [hh])]
    obtain ⟨v, hv, hp, ht⟩ := hx.resolve_left (by simp [hh])
    obtain ⟨s', h1⟩ := rows_tie h hF hC hv hp ht
    exact ⟨s', by rw [h1]; rfl⟩
  · exact ⟨s, by rw [if_pos hh]⟩

/-- The result of a computation that returns OK is a layout. -/
theorem drawing_layout {s s' : PGraph} {par : Nat → Nat} {c c' : Ctx} (h : Consistent s) (hF : Forest s id par)
    (hC : ∀ v, IsPrimary s v → (c.VI v).ancestorChild ≤ s.g.N) (hl : NoLoops s.g)
    (hr : computeDrawing s c = some (s', some c')) : Layout s.g c' := by
  by_cases hx : s.g.holes ≠ [] ∨ ∃ v, IsPrimary s v ∧ par v ≠ 0 ∧ MarkedTie c v
  · obtain ⟨s1, h1⟩ := drawing_refused h hF hC hx
    rw [hr] at h1
    cases (Prod.mk.inj (Option.some.inj h1)).2
  · push Not at hx
    obtain ⟨s1, c1, -, h2⟩ := drawing_computed h hF hC (fun v hv hp => hx.2 v hv hp) hl hx.1
    rcases h2 with ⟨-, h2⟩ | ⟨-, c2, h2, h3, -, -⟩
    · rw [hr] at h2
      cases (Prod.mk.inj (Option.some.inj h2)).2
    · rw [hr] at h2
      cases (Prod.mk.inj (Option.some.inj h2)).2
      exact h3

/-- C69: the columns of the edges are 0 to M - 1, each once, and the two arcs of an edge agree. -/
theorem columns_permutation {s s' : PGraph} {par : Nat → Nat} {c c' : Ctx} (h : Consistent s) (hF : Forest s id par)
    (hC : ∀ v, IsPrimary s v → (c.VI v).ancestorChild ≤ s.g.N) (hl : NoLoops s.g)
    (hr : computeDrawing s c = some (s', some c')) :
    ColumnsFilled s.g c' ∧ ∀ e, Live s.g e → ecol c' (e ^^^ 1) = ecol c' e := by
  have := drawing_layout h hF hC hl hr
  exact ⟨this.columns, fun e he => congrArg DEdge.pos (this.arcs e he)⟩

/-- A layout is a visibility representation if no edge meets a vertex that is not its end. -/
theorem layout_visibility {s : PGraph} {c : Ctx} (h : Consistent s) (hc : Layout s.g c) :
    Visibility s.g c ↔ ∀ u e w v, ArcTo s.g u e w → IsPrimary s v → Meets c e v → v = u ∨ v = w := by
  obtain ⟨rot, hp⟩ := h
  constructor
  · intro hV u e w v ha hv hm
    exact (hV.meets u e w v ha hv.1 hv.2).1 hm
  · intro hno
    have hcol : ∀ v e w, ArcTo s.g v e w → 0 ≤ ecol c e ∧ ecol c e < s.g.M :=
      fun v e w ha => hc.columns.range e ⟨v, ha.1⟩
    refine ⟨fun _ => hc.rows.range, hc.rows.apart, ?_, hc.arcs, hc.columns.range, hc.columns.apart, hc.runs, ?_⟩
    · intro hM v h1 h2
      by_cases hx : ∃ e w, ArcTo s.g v e w
      · obtain ⟨e, w, ha⟩ := hx
        obtain ⟨e1, w1, a1, q1⟩ := hc.first v e w ha
        obtain ⟨e2, w2, a2, q2⟩ := hc.last v e w ha
        have := hcol v e1 w1 a1
        have := hcol v e2 w2 a2
        have := hc.covers v e w ha
        omega
      · push Not at hx
        have := hc.single v h1 h2 hx
        omega
    · intro u e w v ha h1 h2
      refine ⟨fun hm => hno u e w v ha ⟨h1, h2⟩ hm, ?_⟩
      have hru := hc.runs u e w ha
      rintro (rfl | rfl)
      · refine ⟨?_, hc.covers v e w ha⟩
        omega
      · obtain ⟨he, rfl⟩ := (arcTo_iff hp.inv).1 ha
        have hb : ArcTo s.g (s.g.E e).nbr (twin e) u := (arcTo_iff hp.inv).2 ⟨hp.inv.twins u e he, hp.inv.owner u e he⟩
        have hq := hc.covers _ _ _ hb
        have hq' : ecol c (twin e) = ecol c e := congrArg DEdge.pos (hc.arcs e ⟨u, ha.1⟩)
        rw [hq'] at hq
        refine ⟨?_, hq⟩
        omega

/-- C70: a computed drawing passes the test of the drawing exactly if no edge meets a vertex that is not its end. -/
theorem drawing_accepted {s s' : PGraph} {par : Nat → Nat} {c c' : Ctx} (h : Consistent s) (hF : Forest s id par)
    (hC : ∀ v, IsPrimary s v → (c.VI v).ancestorChild ≤ s.g.N) (hl : NoLoops s.g)
    (hr : computeDrawing s c = some (s', some c')) :
    (Visibility s.g c' ↔ ∀ u e w v, ArcTo s.g u e w → IsPrimary s v → Meets c' e v → v = u ∨ v = w) ∧
    ∃ g' r, check c' s.g = some (g', r) ∧ (r = .ok ∨ r = .notok) ∧ (r = .ok ↔ Visibility s.g c') := by
  have hc := drawing_layout h hF hC hl hr
  refine ⟨layout_visibility h hc, ?_⟩
  obtain ⟨g', r, h1, -, h2, h3⟩ := drawing_check_exact h hl c' (fun _ => hc.rows.range)
  refine ⟨g', r, h1, h2, ?_⟩
  rw [h3]
  refine and_iff_right ?_
  by_contra hh
  obtain ⟨s1, h4⟩ := drawing_refused h hF hC (.inl hh)
  rw [hr] at h4
  cases (Prod.mk.inj (Option.some.inj h4)).2

/-- A graph numbered and sorted. -/
def numberedSorted (a : PGraph) : PGraph :=
  (((a.createDFSTree.map Prod.fst).getD a).sortVertices.map Prod.fst).getD a

theorem numberedSorted_forest {a : PGraph} (ha : PReach a) (hn : a.g.dfsNumbered = false) :
    Consistent (numberedSorted a) ∧ ∃ par, Forest (numberedSorted a) id par := by
  obtain ⟨s1, num, par, rot, h1, hI, hF, hi, hn, hs, _⟩ := search_ok ha hn
  obtain ⟨inv, hnum, h2, _, _, hn', hs'⟩ := sort_ok hI hn
  have he : numberedSorted a = sortedOf s1 inv := by unfold numberedSorted; rw [h1]; dsimp only [Option.map, Option.getD]; rw [h2]
  rw [he]
  exact ⟨(PReach.sort (.dfs ha h1) h2).inv, _, forest_sorted hI hnum (hI.numbered hn).2 hn hF hi⟩

/-- A cycle of four vertices and a single one; vertex 4 is marked to lie between its parent 3 and the ancestor 1. -/
def cycleFour : PGraph := made 5 [.add 1 0 2 0, .add 2 0 3 0, .add 3 0 4 0, .add 4 0 1 0]
def cycleMarks : Ctx := { VI := fun v => if v = 4 then { flag := 2, ancestor := 1, ancestorChild := 2 } else {} }
/-- The complete graph with four vertices. -/
def completeFour : PGraph :=
  made 4 [.add 1 0 2 0, .add 2 0 3 0, .add 3 0 4 0, .add 4 0 1 0, .add 1 0 3 0, .add 2 0 4 0]

/-- Hypotheses of C69 and C70: the drawing computed of the cycle, which is accepted. -/
example : Consistent (numberedSorted cycleFour) ∧ (∃ par, Forest (numberedSorted cycleFour) id par) ∧
    NoLoops (numberedSorted cycleFour).g ∧ (numberedSorted cycleFour).g.holes = [] ∧
    (∀ v, IsPrimary (numberedSorted cycleFour) v → (cycleMarks.VI v).ancestorChild ≤ (numberedSorted cycleFour).g.N) ∧
    (∀ v, ¬ MarkedTie cycleMarks v) ∧
    ((computeDrawing (numberedSorted cycleFour) cycleMarks).map fun p => p.2.map fun c =>
      ((List.range' 1 5).map (fun v => (vrow c v, vleft c v, vright c v)),
        [2, 4, 6, 8].map (fun e => (ecol c e, etop c e, ebottom c e)))) =
      some (some ([(0, 0, 2), (1, 2, 3), (3, 1, 3), (2, 0, 1), (4, 0, 0)], [(2, 0, 1), (3, 1, 3), (1, 2, 3), (0, 0, 2)])) ∧
    ((computeDrawing (numberedSorted cycleFour) cycleMarks).map fun p => p.2.map fun c =>
      (check c (numberedSorted cycleFour).g).map Prod.snd) = some (some (some .ok)) := by
  obtain ⟨hc, hF⟩ := numberedSorted_forest (a := cycleFour)
    (made_reach _ _ (by decide) (by decide +kernel) (by decide)) (by decide +kernel)
  have hN : (numberedSorted cycleFour).g.N = 5 := by decide +kernel
  obtain ⟨rot, hi⟩ := id hc
  refine ⟨hc, hF, noLoops_of hi (by decide +kernel), by decide +kernel, ?_, ?_, by decide +kernel, by decide +kernel⟩
  · intro v _
    rw [hN]
    by_cases hv : v = 4 <;> simp [cycleMarks, hv]
  · intro v
    by_cases hv : v = 4 <;> simp [cycleMarks, hv, MarkedTie]

/-- No row is above vertex 3 of the path with the marks above but the one of vertex 1, which is no neighbour: NOTOK. -/
example : ((computeDrawing pathSorted pathMarks).map fun p => p.2.isSome) = some false := by decide +kernel

/-- The layout alone does not make a visibility representation: with all vertices placed below their parents and the
edges around the vertices in the order of their insertion, the drawing of the complete graph computed is rejected. -/
example : ((computeDrawing (numberedSorted completeFour) {}).map fun p => p.2.map fun c =>
    (check c (numberedSorted completeFour).g).map Prod.snd) = some (some (some .notok)) := by decide +kernel

end Props
end Verif
