import Verif.Draw.Sort
import Verif.Props.Drawing

/-
Sorting the vertices of a graph with a drawing (C82).
-/
namespace Verif.Props
open Verif Verif.Graph Verif.Draw Verif.DFS

/-- The vertices that the data of a drawing name are vertices. -/
def NamesVertices (s : PGraph) (c : Ctx) : Prop :=
  ∀ v, IsPrimary s v → (c.VI v).ancestor ≠ 0 → IsPrimary s (c.VI v).ancestor ∧ IsPrimary s (c.VI v).ancestorChild

/-- The data `c'` are the data `c` under the names `σ`: each vertex has its row, its columns and its marks, the vertices
it names are renamed; the data of the edges, which keep their records, are the same. -/
structure CarriedAlong (s : PGraph) (σ : Nat → Nat) (c c' : Ctx) : Prop where
  place : ∀ v, IsPrimary s v → vrow c' (σ v) = vrow c v ∧ vleft c' (σ v) = vleft c v ∧ vright c' (σ v) = vright c v
  marks : ∀ v, IsPrimary s v → (c'.VI (σ v)).flag = (c.VI v).flag ∧ (c'.VI (σ v)).tie0 = (c.VI v).tie0 ∧
    (c'.VI (σ v)).tie1 = (c.VI v).tie1
  names : ∀ v, IsPrimary s v → (c.VI v).ancestor ≠ 0 → (c'.VI (σ v)).ancestor = σ (c.VI v).ancestor ∧
    (c'.VI (σ v)).ancestorChild = σ (c.VI v).ancestorChild
  none : ∀ v, IsPrimary s v → (c.VI v).ancestor = 0 → (c'.VI (σ v)).ancestor = 0 ∧
    (c'.VI (σ v)).ancestorChild = (c.VI v).ancestorChild
  edges : c'.E = c.E

theorem movedData_place (σ : Nat → Nat) (r : DVert) : (movedData σ r).pos = r.pos ∧ (movedData σ r).start = r.start ∧
    (movedData σ r).stop = r.stop ∧ (movedData σ r).flag = r.flag ∧ (movedData σ r).tie0 = r.tie0 ∧
    (movedData σ r).tie1 = r.tie1 := by
  unfold movedData
  split <;> exact ⟨rfl, rfl, rfl, rfl, rfl, rfl⟩

theorem carried_sorted {s : PGraph} {inv : Nat → Nat} (hn : Numbering s.g inv) (c : Ctx) :
    CarriedAlong s (fun u => (s.g.V u).index) c (sortedData s.g inv c) := by
  have key : ∀ v, IsPrimary s v → (sortedData s.g inv c).VI (s.g.V v).index =
      movedData (fun u => (s.g.V u).index) (c.VI v) := by
    intro v hv
    obtain ⟨h1, h2, h3⟩ := hn.out v hv.1 hv.2
    unfold sortedData
    dsimp only
    rw [if_pos ⟨h1, h2⟩, h3]
  constructor
  · intro v hv
    obtain ⟨h1, h2, h3, -⟩ := movedData_place (fun u => (s.g.V u).index) (c.VI v)
    unfold vrow vleft vright
    rw [key v hv]
    exact ⟨h1, h2, h3⟩
  · intro v hv
    obtain ⟨-, -, -, h⟩ := movedData_place (fun u => (s.g.V u).index) (c.VI v)
    rw [key v hv]
    exact h
  · intro v hv h0
    rw [key v hv]
    unfold movedData
    rw [if_pos h0]
    exact ⟨rfl, rfl⟩
  · intro v hv h0
    rw [key v hv]
    unfold movedData
    rw [if_neg (by simpa using h0)]
    exact ⟨h0, rfl⟩
  · rfl

/-- A drawing carried along stays a drawing. -/
theorem visibility_sorted {s : PGraph} {rot : Nat → List Nat} {inv : Nat → Nat} (hI : PInv s rot) (hn : Numbering s.g inv)
    (hI' : PInv (sortedOf s inv) (sortRot s.g.N inv rot)) (hR : Renamed s (sortedOf s inv) (fun u => (s.g.V u).index))
    {c : Ctx} (hV : Visibility s.g c) : Visibility (sortedOf s inv).g (sortedData s.g inv c) := by
  have hC := carried_sorted hn c
  generalize sortedData s.g inv c = c' at hC ⊢
  have hE := hC.edges
  have hback : ∀ p, 1 ≤ p → p ≤ (sortedOf s inv).g.N → ∃ v, IsPrimary s v ∧ p = (s.g.V v).index := by
    intro p h1 h2
    obtain ⟨a, b, e⟩ := hn.back p h1 h2
    exact ⟨inv p, ⟨a, b⟩, e.symm⟩
  have hlive : ∀ e, Live (sortedOf s inv).g e → Live s.g e := by
    intro e he
    obtain ⟨w, hw⟩ := (live_iff hI'.inv).1 he
    obtain ⟨u, hu, -⟩ := (mem_sortRot hn hI.prim).1 hw
    exact (live_iff hI.inv).2 ⟨u, hu⟩
  have harc : ∀ p e q, ArcTo (sortedOf s inv).g p e q → ∃ u w, IsPrimary s u ∧ IsPrimary s w ∧ ArcTo s.g u e w ∧
      p = (s.g.V u).index ∧ q = (s.g.V w).index := by
    intro p e q ha
    obtain ⟨u, hu, hp⟩ := (mem_sortRot hn hI.prim).1 ((arcTo_iff hI'.inv).1 ha).1
    have ha0 : ArcTo s.g u e (s.g.E e).nbr := (arcTo_iff hI.inv).2 ⟨hu, rfl⟩
    have ha1 := hR.heads _ _ _ ha0
    have hq : q = (s.g.V (s.g.E e).nbr).index := Option.some.inj (ha.2.symm.trans ha1.2)
    exact ⟨u, _, hI.prim u e hu, hI.prim _ _ (hI.inv.twins u e hu), ha0, hp, hq⟩
  have hM : (sortedOf s inv).g.M = s.g.M := rfl
  have hN : (sortedOf s inv).g.N = s.g.N := rfl
  have hcol : ∀ e, ecol c' e = ecol c e ∧ etop c' e = etop c e ∧ ebottom c' e = ebottom c e := by
    intro e
    unfold ecol etop ebottom
    rw [hE]
    exact ⟨rfl, rfl, rfl⟩
  constructor
  · intro hm p h1 h2
    obtain ⟨v, hv, rfl⟩ := hback p h1 h2
    rw [(hC.place v hv).1, hN]
    exact hV.rows hm v hv.1 hv.2
  · intro p q h1 h2 h3 h4 he
    obtain ⟨v, hv, rfl⟩ := hback p h1 h2
    obtain ⟨w, hw, rfl⟩ := hback q h3 h4
    rw [(hC.place v hv).1, (hC.place w hw).1] at he
    rw [hV.apart v w hv.1 hv.2 hw.1 hw.2 he]
  · intro hm p h1 h2
    obtain ⟨v, hv, rfl⟩ := hback p h1 h2
    rw [(hC.place v hv).2.1, (hC.place v hv).2.2, hM]
    exact hV.segments hm v hv.1 hv.2
  · intro e he
    rw [hE]
    exact hV.arcs e (hlive e he)
  · intro e he
    rw [(hcol e).1, hM]
    exact hV.columns e (hlive e he)
  · intro e f he hf h
    rw [(hcol e).1, (hcol f).1] at h
    exact hV.distinct e f (hlive e he) (hlive f hf) h
  · intro p e q ha
    obtain ⟨u, w, hu, hw, ha0, rfl, rfl⟩ := harc p e q ha
    rw [(hcol e).2.1, (hcol e).2.2, (hC.place u hu).1, (hC.place w hw).1]
    exact hV.runs u e w ha0
  · intro p e q r ha h1 h2
    obtain ⟨u, w, hu, hw, ha0, rfl, rfl⟩ := harc p e q ha
    obtain ⟨v, hv, rfl⟩ := hback r h1 h2
    unfold Meets
    rw [(hcol e).1, (hcol e).2.1, (hcol e).2.2, (hC.place v hv).1, (hC.place v hv).2.1, (hC.place v hv).2.2]
    have := hV.meets u e w v ha0 hv.1 hv.2
    unfold Meets at this
    rw [this]
    constructor
    · rintro (rfl | rfl)
      · exact .inl rfl
      · exact .inr rfl
    · rintro (h | h)
      · exact .inl (hR.inj v u hv hu h)
      · exact .inr (hR.inj v w hv hw h)

/-- A drawing of the sorted graph was a drawing before. -/
theorem visibility_unsorted {s : PGraph} {rot : Nat → List Nat} {inv : Nat → Nat} (hI : PInv s rot) (hn : Numbering s.g inv)
    (hI' : PInv (sortedOf s inv) (sortRot s.g.N inv rot)) (hR : Renamed s (sortedOf s inv) (fun u => (s.g.V u).index))
    {c : Ctx} (hV : Visibility (sortedOf s inv).g (sortedData s.g inv c)) : Visibility s.g c := by
  have hC := carried_sorted hn c
  generalize sortedData s.g inv c = c' at hC hV
  have hE := hC.edges
  have hM : (sortedOf s inv).g.M = s.g.M := rfl
  have hN : (sortedOf s inv).g.N = s.g.N := rfl
  have hto : ∀ v, IsPrimary s v → 1 ≤ (s.g.V v).index ∧ (s.g.V v).index ≤ (sortedOf s inv).g.N := fun v hv =>
    ⟨(hn.out v hv.1 hv.2).1, (hn.out v hv.1 hv.2).2.1⟩
  have hlive : ∀ e, Live s.g e → Live (sortedOf s inv).g e := by
    intro e he
    obtain ⟨u, hu⟩ := (live_iff hI.inv).1 he
    have ha1 := hR.heads _ _ _ ((arcTo_iff hI.inv).2 ⟨hu, rfl⟩)
    exact (live_iff hI'.inv).2 ⟨_, ((arcTo_iff hI'.inv).1 ha1).1⟩
  have hprim : ∀ u e w, ArcTo s.g u e w → IsPrimary s u ∧ IsPrimary s w := by
    intro u e w ha
    obtain ⟨hu, rfl⟩ := (arcTo_iff hI.inv).1 ha
    exact ⟨hI.prim u e hu, hI.prim _ _ (hI.inv.twins u e hu)⟩
  have hcol : ∀ e, ecol c' e = ecol c e ∧ etop c' e = etop c e ∧ ebottom c' e = ebottom c e := by
    intro e
    unfold ecol etop ebottom
    rw [hE]
    exact ⟨rfl, rfl, rfl⟩
  constructor
  · intro hm v h1 h2
    have := hV.rows hm _ (hto v ⟨h1, h2⟩).1 (hto v ⟨h1, h2⟩).2
    rwa [(hC.place v ⟨h1, h2⟩).1] at this
  · intro v w h1 h2 h3 h4 he
    have := hV.apart _ _ (hto v ⟨h1, h2⟩).1 (hto v ⟨h1, h2⟩).2 (hto w ⟨h3, h4⟩).1 (hto w ⟨h3, h4⟩).2
    rw [(hC.place v ⟨h1, h2⟩).1, (hC.place w ⟨h3, h4⟩).1] at this
    exact hR.inj v w ⟨h1, h2⟩ ⟨h3, h4⟩ (this he)
  · intro hm v h1 h2
    have := hV.segments hm _ (hto v ⟨h1, h2⟩).1 (hto v ⟨h1, h2⟩).2
    rwa [(hC.place v ⟨h1, h2⟩).2.1, (hC.place v ⟨h1, h2⟩).2.2] at this
  · intro e he
    rw [← hE]
    exact hV.arcs e (hlive e he)
  · intro e he
    have := hV.columns e (hlive e he)
    rwa [(hcol e).1] at this
  · intro e f he hf h
    rw [← (hcol e).1, ← (hcol f).1] at h
    exact hV.distinct e f (hlive e he) (hlive f hf) h
  · intro u e w ha
    obtain ⟨hu, hw⟩ := hprim u e w ha
    have := hV.runs _ e _ (hR.heads _ _ _ ha)
    rwa [(hcol e).2.1, (hcol e).2.2, (hC.place u hu).1, (hC.place w hw).1] at this
  · intro u e w v ha h1 h2
    obtain ⟨hu, hw⟩ := hprim u e w ha
    have hv : IsPrimary s v := ⟨h1, h2⟩
    have := hV.meets _ e _ _ (hR.heads _ _ _ ha) (hto v hv).1 (hto v hv).2
    unfold Meets at this ⊢
    rw [(hcol e).1, (hcol e).2.1, (hcol e).2.2, (hC.place v hv).1, (hC.place v hv).2.1, (hC.place v hv).2.2] at this
    rw [this]
    constructor
    · rintro (h | h)
      · exact .inl (hR.inj v u hv hu h)
      · exact .inr (hR.inj v w hv hw h)
    · rintro (rfl | rfl)
      · exact .inl rfl
      · exact .inr rfl

theorem sortedData_twice {s : PGraph} {inv : Nat → Nat} (hn : Numbering s.g inv) {c : Ctx} (hc : NamesVertices s c) :
    sortedData (sortedOf s inv).g (fun u => (s.g.V u).index) (sortedData s.g inv c) = c := by
  have hidx : ∀ u, IsPrimary s u → ((sortedOf s inv).g.V (s.g.V u).index).index = u := by
    intro u hu
    obtain ⟨h1, h2, h3⟩ := hn.out u hu.1 hu.2
    show VRec.index (if _ then _ else _) = _
    rw [if_pos ⟨h1, h2⟩]
    exact h3
  have : ∀ p, (sortedData (sortedOf s inv).g (fun u => (s.g.V u).index) (sortedData s.g inv c)).VI p = c.VI p := by
    intro p
    show (if 1 ≤ p ∧ p ≤ s.g.N then _ else (sortedData s.g inv c).VI p) = _
    by_cases hp : 1 ≤ p ∧ p ≤ s.g.N
    · obtain ⟨h1, h2, h3⟩ := hn.out p hp.1 hp.2
      rw [if_pos hp]
      have e : (sortedData s.g inv c).VI (s.g.V p).index = movedData (fun u => (s.g.V u).index) (c.VI p) := by
        unfold sortedData
        dsimp only
        rw [if_pos ⟨h1, h2⟩, h3]
      rw [e]
      by_cases h0 : (c.VI p).ancestor ≠ 0
      · obtain ⟨a1, a2⟩ := hc p hp h0
        have hne : (s.g.V (c.VI p).ancestor).index ≠ 0 := by
          have := (hn.out _ a1.1 a1.2).1
          omega
        unfold movedData
        rw [if_pos h0]
        dsimp only
        rw [if_pos hne, hidx _ a1, hidx _ a2]
      · unfold movedData
        rw [if_neg h0, if_neg h0]
    · rw [if_neg hp]
      show (if 1 ≤ p ∧ p ≤ s.g.N then _ else c.VI p) = _
      rw [if_neg hp]
  exact congrArg₂ Ctx.mk (funext this) rfl

/-- C82, without what `read_drawing_sort_false` refutes. After an embedding with EMBEDFLAGS_DRAWPLANAR gp_SortVertices
sorts the graph as it does without the extension and carries the data of the drawing along, so that a drawing stays a
drawing and nothing else becomes one; sorting again gives the data back. -/
theorem drawing_sort_partial {s : PGraph} (h : PReach s) (hn : s.g.dfsNumbered = true) {c : Ctx} (hc : NamesVertices s c) :
    ∃ (s' : PGraph) (c' : Ctx) (σ : Nat → Nat), sortDrawing 5 s c = some (s', c', .ok) ∧ s.sortVertices = some (s', .ok) ∧
      (∀ u, IsPrimary s u → s.g.getIndex u = some (σ u)) ∧ CarriedAlong s σ c c' ∧
      (Visibility s.g c ↔ Visibility s'.g c') ∧ sortDrawing 5 s' c' = some (markAll s, c, .ok) := by
  obtain ⟨rot, hI⟩ := h.inv
  obtain ⟨inv, hnum, h1, hI', hR, hn', _⟩ := sort_ok hI hn
  have hp := (hI.numbered hn).2
  refine ⟨_, sortedData s.g inv c, fun u => (s.g.V u).index,
    sortDrawing_eq hI.inv hnum hn hp fun v v1 v2 v3 => ⟨(hc v ⟨v1, v2⟩ v3).1.2, (hc v ⟨v1, v2⟩ v3).2.2⟩, h1,
    fun u hu => getIndex_some hu rfl, carried_sorted hnum c, ⟨visibility_sorted hI hnum hI' hR, visibility_unsorted hI hnum hI' hR⟩, ?_⟩
  have hC := carried_sorted hnum c
  rw [sortDrawing_eq hI'.inv (Test.numbering_sorted hnum) hn' (hI'.numbered hn').2 (by
    intro p p1 p2 p3
    obtain ⟨a, b, e⟩ := hnum.back p p1 p2
    have hv : IsPrimary s (inv p) := ⟨a, b⟩
    by_cases h0 : (c.VI (inv p)).ancestor = 0
    · have := (hC.none _ hv h0).1
      rw [e] at this
      exact absurd this p3
    · obtain ⟨n1, n2⟩ := hC.names _ hv h0
      rw [e] at n1 n2
      obtain ⟨a1, a2⟩ := hc _ hv h0
      rw [n1, n2]
      exact ⟨(hnum.out _ a1.1 a1.2).2.1, (hnum.out _ a2.1 a2.2).2.1⟩), sortedOf_twice hI hnum hp, sortedData_twice hnum hc]

/-- The path 1-3-2 and a drawing of it. -/
def bentPath : PGraph := built 3 8 [.add 1 0 3 0, .add 3 0 2 0]
def bentDrawing : Ctx where
  VI v := if v = 1 then { pos := 0, start := 0, stop := 0 } else if v = 3 then { pos := 1, start := 0, stop := 1 }
    else { pos := 2, start := 1, stop := 1, ancestor := 3, ancestorChild := 2 }
  E e := if e < 4 then { pos := 0, start := 0, stop := 1 } else { pos := 1, start := 1, stop := 2 }

theorem bentPath_reach : PReach bentPath := built_reach _ _ _ (by decide) (by decide) (by decide +kernel) (by decide)

/-- C82 is false: for a drawing that was read, where embedFlags is 0, gp_SortVertices moves the vertices and leaves the data
of the drawing behind: an accepted drawing is refused afterwards. -/
theorem read_drawing_sort_false : ∃ (s : PGraph) (c : Ctx), PReach s ∧ (check c s.g).map Prod.snd = some .ok ∧
    (sortDrawing 0 s c).map (fun x => x.2.2) = some .ok ∧
    ((sortDrawing 0 s c).bind fun x => (check x.2.1 x.1.g).map Prod.snd) = some .notok :=
  ⟨bentPath, bentDrawing, bentPath_reach, by decide +kernel, by decide +kernel, by decide +kernel⟩

-- The hypotheses are met; sorting moves the vertices, and the drawing is still accepted.
example : PReach (numbered bentPath) ∧ (numbered bentPath).g.dfsNumbered = true ∧
    NamesVertices (numbered bentPath) bentDrawing ∧ (numbered bentPath).g.getIndex 3 = some 2 ∧
    (check bentDrawing (numbered bentPath).g).map Prod.snd = some .ok ∧
    ((sortDrawing 5 (numbered bentPath) bentDrawing).bind fun x => (check x.2.1 x.1.g).map Prod.snd) = some .ok ∧
    (sortDrawing 5 (numbered bentPath) bentDrawing).map (fun x => ((x.2.1.VI 3).ancestor, (x.2.1.VI 3).ancestorChild)) =
      some (2, 3) := by
  have hN : (numbered bentPath).g.N = 3 := by decide +kernel
  refine ⟨(numbered_ok bentPath_reach (by decide +kernel)).1, by decide +kernel, ?_, by decide +kernel, by decide +kernel,
    by decide +kernel, by decide +kernel⟩
  rintro v ⟨h1, h2⟩ h3
  rw [hN] at h2
  have : v = 1 ∨ v = 2 ∨ v = 3 := by omega
  rcases this with rfl | rfl | rfl
  · exact absurd rfl h3
  · unfold IsPrimary
    rw [hN]
    decide
  · exact absurd rfl h3

end Verif.Props
