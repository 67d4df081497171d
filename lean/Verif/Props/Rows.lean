import Verif.Draw.Place
import Verif.Spec.Drawing
import Verif.Props.DFS
import Verif.Props.Drawing

/-
C33, C68: the rows computed for the vertices of a drawing (graphDrawPlanar.c 76-292).
-/
namespace Verif
namespace Props
open Graph Draw PGraph DFS

/-- The computation ends, whatever has been recorded; it fails only at a tie. -/
theorem rows_cases {s : PGraph} {par : Nat → Nat} {c : Ctx} (h : Consistent s) (hF : Forest s id par)
    (hC : ∀ v, IsPrimary s v → (c.VI v).ancestorChild ≤ s.g.N) :
    ∃ s' res, computeRows s c = some (s', res) ∧ s' = s.setG { s.g with stack := s'.g.stack } ∧
      ((res = none ∧ ∃ x, IsPrimary s x ∧ par x ≠ 0 ∧ MarkedTie c x) ∨
        ∃ c' L, res = some c' ∧ GInv s par c c' L ∧ ∀ v, v ∈ L ↔ IsPrimary s v) := by
  obtain ⟨rot, hp⟩ := h
  obtain ⟨stk, res, h1, h2⟩ := computeRows_spec hp hF hC
  exact ⟨ws s stk, res, h1, rfl, h2⟩

/-- C33: if the placement of every vertex but the roots is known, _ComputeVertexPositions returns OK, the rows of the
vertices are 0 to N - 1, each once, and nothing but rows, markings and the stack has changed. -/
theorem rows_permutation {s : PGraph} {par : Nat → Nat} {c : Ctx} (h : Consistent s) (hF : Forest s id par)
    (hC : ∀ v, IsPrimary s v → (c.VI v).ancestorChild ≤ s.g.N) (hT : ∀ v, IsPrimary s v → par v ≠ 0 → ¬ MarkedTie c v) :
    ∃ s' c', computeRows s c = some (s', some c') ∧ RowsFilled s.g.N c' ∧
      s' = s.setG { s.g with stack := s'.g.stack } ∧ c'.E = c.E ∧
      ∀ v, c'.VI v = { c.VI v with flag := (c'.VI v).flag, pos := (c'.VI v).pos } := by
  obtain ⟨s', res, h1, h2, h3⟩ := rows_cases h hF hC
  rcases h3 with ⟨rfl, x, hx, hp, ht⟩ | ⟨c', L, rfl, hG, hL⟩
  · exact absurd ht (hT x hx hp)
  · refine ⟨s', c', h1, ?_, h2, hG.edges, hG.data⟩
    have hlen : L.length = s.g.N := by
      have : L.Perm ((List.range s.g.N).map (· + 1)) := by
        refine (List.perm_ext_iff_of_nodup hG.nodup (List.Nodup.map (fun a b h => by simpa using h) List.nodup_range)).2 ?_
        intro x
        rw [hL, List.mem_map]
        constructor
        · intro hx
          have := hx.1; have := hx.2
          exact ⟨x - 1, List.mem_range.2 (by omega), by omega⟩
        · rintro ⟨a, ha, rfl⟩
          rw [List.mem_range] at ha
          exact ⟨by omega, by omega⟩
      simpa using this.length_eq
    refine ⟨?_, ?_, ?_⟩
    · intro v hv1 hv2
      have hm : v ∈ L := (hL v).2 ⟨hv1, hv2⟩
      have := List.idxOf_lt_length_of_mem hm
      unfold vrow
      rw [hG.pos v hm]
      omega
    · intro v w hv1 hv2 hw1 hw2 e
      have hm : v ∈ L := (hL v).2 ⟨hv1, hv2⟩
      have hm' : w ∈ L := (hL w).2 ⟨hw1, hw2⟩
      unfold vrow at e
      rw [hG.pos v hm, hG.pos w hm'] at e
      exact (List.idxOf_inj hm).1 (by omega)
    · intro k hk
      have hk' : k < L.length := by omega
      have hm : L[k] ∈ L := List.getElem_mem hk'
      refine ⟨L[k], ((hL _).1 hm).1, ((hL _).1 hm).2, ?_⟩
      unfold vrow
      rw [hG.pos _ hm, hG.nodup.idxOf_getElem]

/-- C33: with an unresolved tie it returns NOTOK. -/
theorem rows_tie {s : PGraph} {par : Nat → Nat} {c : Ctx} (h : Consistent s) (hF : Forest s id par)
    (hC : ∀ v, IsPrimary s v → (c.VI v).ancestorChild ≤ s.g.N) {v : Nat} (hv : IsPrimary s v) (hp : par v ≠ 0)
    (ht : MarkedTie c v) : ∃ s', computeRows s c = some (s', none) := by
  obtain ⟨s', res, h1, -, h3⟩ := rows_cases h hF hC
  rcases h3 with ⟨rfl, -⟩ | ⟨c', L, rfl, hG, hL⟩
  · exact ⟨s', h1⟩
  · exact absurd ht (hG.noTie v ((hL v).2 hv) hp)

/-- C68: the descendants of a child lie on the same side of the parent as the child. -/
theorem rows_subtrees {s s' : PGraph} {par : Nat → Nat} {c c' : Ctx} (h : Consistent s) (hF : Forest s id par)
    (hC : ∀ v, IsPrimary s v → (c.VI v).ancestorChild ≤ s.g.N) (hr : computeRows s c = some (s', some c'))
    {v w : Nat} (hv : IsPrimary s v) (hp : par v ≠ 0) (hw : IsPrimary s w) (ha : AncEq par v w) :
    (vrow c' (par v) < vrow c' v ∧ vrow c' (par v) < vrow c' w) ∨ (vrow c' v < vrow c' (par v) ∧ vrow c' w < vrow c' (par v)) := by
  obtain ⟨s1, res, h1, -, h3⟩ := rows_cases h hF hC
  rw [hr] at h1
  obtain ⟨rfl, rfl⟩ := Prod.mk.inj (Option.some.inj h1)
  rcases h3 with ⟨h3, -⟩ | ⟨c1, L, h3, hG, hL⟩
  · cases h3
  · cases h3
    have hpp := hF.up v hv hp
    have hvm := (hL v).2 hv
    have hwm := (hL w).2 hw
    have hpm := (hL _).2 hpp.1
    have hb := hG.block v hvm hp w hwm ha
    have hn1 : (par v : Nat) < v := hpp.2.1
    have hn2 := ancEq_num hF ha hw
    have hn2' : v ≤ w := hn2
    have hi1 : (c'.VI (par v)).pos ≠ (c'.VI v).pos := by
      rw [hG.pos _ hpm, hG.pos _ hvm]
      intro e
      have := (List.idxOf_inj hpm).1 (show L.idxOf (par v) = L.idxOf v by omega)
      omega
    have hi2 : (c'.VI (par v)).pos ≠ (c'.VI w).pos := by
      rw [hG.pos _ hpm, hG.pos _ hwm]
      intro e
      have := (List.idxOf_inj hpm).1 (show L.idxOf (par v) = L.idxOf w by omega)
      omega
    unfold vrow
    omega

/-- C68: suppose nothing has been recorded for the children of the roots (they have no ancestor). Then the rows are as
recorded: if the placement of `w` is recorded with respect to the ancestor `par a`, `a` its child on the way to `w`, then
the row of `w` lies between the rows of its parent and the ancestor if `w` is marked so, and the row of its parent lies
between the rows of `w` and the ancestor if `w` is marked beyond. -/
theorem rows_as_marked {s s' : PGraph} {par : Nat → Nat} {c c' : Ctx} (h : Consistent s) (hF : Forest s id par)
    (hC : ∀ v, IsPrimary s v → (c.VI v).ancestorChild ≤ s.g.N) (hr : computeRows s c = some (s', some c'))
    (h0 : ∀ v, IsPrimary s v → par v ≠ 0 → par (par v) = 0 → Unmarked c v)
    {w a : Nat} (hw : IsPrimary s w) (hp : par w ≠ 0) (hm : MarkedFrom c w a) (ha : AncEq par a (par w)) (ha0 : par a ≠ 0) :
    (MarkedBetween c w → StrictlyBetween (vrow c' (par a)) (vrow c' w) (vrow c' (par w))) ∧
    (MarkedBeyond c w → StrictlyBetween (vrow c' (par a)) (vrow c' (par w)) (vrow c' w)) := by
  have hpp := hF.up w hw hp
  have hap : IsPrimary s a := ancEq_primary hF ha hpp.1
  have hsub := rows_subtrees h hF hC hr hap ha0 hw (AncEq.up hp ha)
  have hsub' := rows_subtrees h hF hC hr hap ha0 hpp.1 ha
  obtain ⟨s1, res, h1, -, h3⟩ := rows_cases h hF hC
  rw [hr] at h1
  obtain ⟨rfl, rfl⟩ := Prod.mk.inj (Option.some.inj h1)
  rcases h3 with ⟨h3, -⟩ | ⟨c1, L, h3, hG, hL⟩
  · cases h3
  cases h3
  have hwm := (hL w).2 hw
  have ham := (hL a).2 hap
  have hm' : (c.VI w).ancestorChild = a := hm
  have hnx := hG.next w hwm hp (by rw [hm']; exact ha)
  rw [hm'] at hnx
  have hpp0 : par (par w) ≠ 0 := by
    rcases ha.cases with e | e
    · rw [← e]; exact ha0
    · exact e.1
  have hbl := hG.below w hwm hp
  have hab := hG.above w hwm hp
  unfold vrow at hsub hsub' ⊢
  unfold StrictlyBetween MarkedBetween MarkedBeyond
  rcases hG.flag a ham with hfa | hfa
  · have hside := hG.below a ham ha0 hfa
    rw [hfa] at hnx
    refine ⟨fun hb => ?_, fun hb => ?_⟩
    · rw [hb] at hnx
      have := hab (by rw [hnx]; rfl) hpp0
      omega
    · rw [hb] at hnx
      have := hbl (by rw [hnx]; rfl)
      omega
  · have hva : par (par a) ≠ 0 := by
      intro e
      have hu := h0 a hap ha0 e
      have := hG.first a ham ha0 hu.2
      rw [show (c.VI a).flag = 0 from hu.1] at this
      rw [this] at hfa
      simp [newFlag] at hfa
    have hside := hG.above a ham ha0 hfa hva
    rw [hfa] at hnx
    refine ⟨fun hb => ?_, fun hb => ?_⟩
    · rw [hb] at hnx
      have := hbl (by rw [hnx]; rfl)
      omega
    · rw [hb] at hnx
      have := hab (by rw [hnx]; rfl) hpp0
      omega

/-- C68: a vertex for which nothing has been recorded lies below its parent. -/
theorem rows_unmarked {s s' : PGraph} {par : Nat → Nat} {c c' : Ctx} (h : Consistent s) (hF : Forest s id par)
    (hC : ∀ v, IsPrimary s v → (c.VI v).ancestorChild ≤ s.g.N) (hr : computeRows s c = some (s', some c'))
    {w : Nat} (hw : IsPrimary s w) (hp : par w ≠ 0) (hm : Unmarked c w) : vrow c' (par w) < vrow c' w := by
  obtain ⟨s1, res, h1, -, h3⟩ := rows_cases h hF hC
  rw [hr] at h1
  obtain ⟨rfl, rfl⟩ := Prod.mk.inj (Option.some.inj h1)
  rcases h3 with ⟨h3, -⟩ | ⟨c1, L, h3, hG, hL⟩
  · cases h3
  cases h3
  have hwm := (hL w).2 hw
  have h1 := hG.first w hwm hp hm.2
  rw [show (c.VI w).flag = 0 from hm.1] at h1
  exact hG.below w hwm hp (by rw [h1]; rfl)

/-- A path of four vertices and a single one, numbered and sorted. -/
def pathFive : PGraph := made 5 [.add 1 0 2 0, .add 2 0 3 0, .add 3 0 4 0]
theorem pathFive_reach : PReach pathFive := made_reach _ _ (by decide) (by decide +kernel) (by decide)
def pathNum : PGraph := (pathFive.createDFSTree.map Prod.fst).getD pathFive
def pathSorted : PGraph := (pathNum.sortVertices.map Prod.fst).getD pathFive

theorem pathSorted_forest : Consistent pathSorted ∧ ∃ par, Forest pathSorted id par := by
  obtain ⟨s1, num, par, rot, h1, hI, hF, hi, hn, hs, _⟩ := search_ok pathFive_reach (by decide +kernel)
  have e1 : pathNum = s1 := by unfold pathNum; rw [h1]; rfl
  obtain ⟨inv, hnum, h2, _, _, hn', hs'⟩ := sort_ok hI hn
  have he : pathSorted = sortedOf s1 inv := by unfold pathSorted; rw [e1, h2]; rfl
  rw [he]
  exact ⟨(PReach.sort (.dfs pathFive_reach h1) h2).inv, _, forest_sorted hI hnum (hI.numbered hn).2 hn hF hi⟩

/-- Vertex 3 is marked to lie between its parent 2 and the ancestor 1, vertex 4 beyond its parent 3 seen from 1. -/
def pathMarks : Ctx := { VI := fun v => if v = 3 then { flag := 2, ancestor := 1, ancestorChild := 2 } else
  if v = 4 then { flag := 0, ancestor := 1, ancestorChild := 2 } else {} }

/-- Hypotheses of C33 and C68, and the rows computed. -/
example : Consistent pathSorted ∧ (∃ par, Forest pathSorted id par ∧ (par 1 = 0 ∧ par 2 = 1 ∧ par 3 = 2 ∧ par 4 = 3 ∧ par 5 = 0) ∧
      (∀ v, IsPrimary pathSorted v → par v ≠ 0 → ¬ MarkedTie pathMarks v) ∧
      (∀ v, IsPrimary pathSorted v → par v ≠ 0 → par (par v) = 0 → Unmarked pathMarks v) ∧
      MarkedFrom pathMarks 3 2 ∧ AncEq par 2 (par 3) ∧ MarkedBetween pathMarks 3 ∧ MarkedBeyond pathMarks 4) ∧
    (∀ v, IsPrimary pathSorted v → (pathMarks.VI v).ancestorChild ≤ pathSorted.g.N) ∧
    ((computeRows pathSorted pathMarks).map fun p => p.2.map fun c => (List.range' 1 5).map (vrow c)) = some (some [0, 3, 1, 2, 4]) := by
  obtain ⟨hc, par, hF⟩ := pathSorted_forest
  have hN : pathSorted.g.N = 5 := by decide +kernel
  have hpar : (List.range' 1 5).map pathSorted.getParent = [some 0, some 1, some 2, some 3, some 0] := by decide +kernel
  have hp : ∀ u, 1 ≤ u → u ≤ 5 → pathSorted.getParent u = some (par u) := fun u h1 h2 => hF.parent u ⟨h1, by rw [hN]; exact h2⟩
  simp only [List.range'_succ, List.range'_zero, List.map_cons, List.map_nil] at hpar
  norm_num at hpar
  obtain ⟨p1, p2, p3, p4, p5⟩ := hpar
  rw [hp 1 (by omega) (by omega), Option.some.injEq] at p1
  rw [hp 2 (by omega) (by omega), Option.some.injEq] at p2
  rw [hp 3 (by omega) (by omega), Option.some.injEq] at p3
  rw [hp 4 (by omega) (by omega), Option.some.injEq] at p4
  rw [hp 5 (by omega) (by omega), Option.some.injEq] at p5
  have hcase : ∀ v, IsPrimary pathSorted v → v = 1 ∨ v = 2 ∨ v = 3 ∨ v = 4 ∨ v = 5 := by
    intro v hv
    have h1 := hv.1
    have h2 := hv.2
    rw [hN] at h2
    omega
  refine ⟨hc, ⟨par, hF, ⟨p1, p2, p3, p4, p5⟩, ?_, ?_, rfl, by rw [p3]; exact .refl _, rfl, rfl⟩, ?_, by decide +kernel⟩
  · intro v hv _
    rcases hcase v hv with rfl | rfl | rfl | rfl | rfl <;> simp [MarkedTie, pathMarks]
  · intro v hv h1 h2
    rcases hcase v hv with rfl | rfl | rfl | rfl | rfl
    · exact absurd p1 h1
    · exact ⟨rfl, rfl⟩
    · rw [p3, p2] at h2; omega
    · rw [p4, p3] at h2; omega
    · exact absurd p5 h1
  · intro v hv
    rw [hN]
    rcases hcase v hv with rfl | rfl | rfl | rfl | rfl <;> simp [pathMarks]

/-- The assumption on the children of the roots is needed: if vertex 2 is marked to lie between its parent, the root, and an
ancestor, it is put before the head of the circular list, which is its end. It lands below the root but is taken to lie
above. -/
def oddMarks : Ctx := { VI := fun v => if v = 2 then { flag := 2 } else
  if v = 3 then { flag := 2, ancestor := 1, ancestorChild := 2 } else {} }

theorem rows_as_marked_root_false :
    ((computeRows pathSorted oddMarks).map fun p => p.2.map fun c => (List.range' 1 3).map (vrow c)) = some (some [0, 1, 2]) ∧
      MarkedBetween oddMarks 3 ∧ MarkedFrom oddMarks 3 2 ∧ ¬ StrictlyBetween 0 2 1 := by
  refine ⟨by decide +kernel, rfl, rfl, ?_⟩
  unfold StrictlyBetween
  omega

end Props
end Verif
