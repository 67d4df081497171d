import Verif.Test.Sub
import Verif.Props.DFS
import Verif.Graph.Build

/-
Helper lemmas: the subgraph test with the sorts that bring both graphs to the same numbering.
-/
namespace Verif
namespace Test
open Graph DFS Props

/-- `s'` is `s` with some vertex visited marks changed. -/
def Marked (s s' : PGraph) : Prop := ∃ F : Nat → Nat → Nat, (∀ w f, F w f / 2 = f / 2) ∧ s' = s.setG (s.g.relabel F)

theorem Marked.refl (s : PGraph) : Marked s s :=
  ⟨fun _ f => f, fun _ _ => rfl, by rw [relabel_id _ _ (fun _ => rfl)]; rfl⟩

theorem Marked.trans {a b c : PGraph} (h : Marked a b) (h' : Marked b c) : Marked a c := by
  obtain ⟨F, h1, rfl⟩ := h
  obtain ⟨G, h2, rfl⟩ := h'
  exact ⟨fun w f => G w (F w f), fun w f => by rw [h2, h1], rfl⟩

theorem Inv.relabel {g : Graph} {rot} (h : Inv g rot) (F) : Inv (g.relabel F) rot :=
  h.mark (fun v => (g.V v).index) (fun v => F v (g.V v).flags)

theorem Marked.pinv {s s' : PGraph} {rot} (h : Marked s s') (hI : PInv s rot) : PInv s' rot := by
  obtain ⟨F, _, rfl⟩ := h
  refine ⟨Inv.relabel hI.inv F, hI.prim, hI.cap, hI.cap', hI.fresh, fun hn => ?_, hI.unsorted⟩
  obtain ⟨⟨inv, a, b⟩, c⟩ := hI.numbered hn
  exact ⟨⟨inv, a, b⟩, c⟩

theorem Marked.sorted {s s' : PGraph} (h : Marked s s') : s'.g.sortedByDfi = s.g.sortedByDfi := by
  obtain ⟨F, _, rfl⟩ := h; rfl

theorem marked_markAll (s : PGraph) : Marked s (markAll s) := by
  refine ⟨fun w f => if 1 ≤ w ∧ w ≤ s.g.N then f / 2 * 2 ||| 1 else f, fun w f => ?_, ?_⟩
  · simp only
    split
    · rw [Nat.or_div_two]; simp
    · rfl
  · unfold markAll PGraph.setG Graph.relabel
    simp only
    congr 2
    funext v
    by_cases hv : 1 ≤ v ∧ v ≤ s.g.N
    · simp only [hv, and_self, if_true]
    · simp only [hv, if_false]

theorem sortedOf_marked {s s' : PGraph} (h : Marked s s') (inv) : Marked (sortedOf s inv) (sortedOf s' inv) := by
  obtain ⟨F, h1, rfl⟩ := h
  refine ⟨fun w f => if 1 ≤ w ∧ w ≤ s.g.N then f else F w f, fun w f => ?_, ?_⟩
  · simp only
    split
    · rfl
    · exact h1 w f
  · unfold sortedOf PGraph.setG Graph.relabel
    simp only
    congr 2
    funext v
    by_cases hv : 1 ≤ v ∧ v ≤ s.g.N
    · simp only [hv, and_self, if_true, h1]
    · simp only [hv, if_false]

theorem numbering_sorted {s : PGraph} {inv} (hnum : Numbering s.g inv) : Numbering (sortedOf s inv).g (fun u => (s.g.V u).index) := by
  constructor
  · intro d h1 h2
    have hd : d ≤ s.g.N := h2
    have hi := hnum.back d h1 hd
    have : ((sortedOf s inv).g.V d).index = inv d := by
      show VRec.index (if _ then _ else _) = _
      rw [if_pos ⟨h1, hd⟩]
    rw [this]
    exact hi
  · intro u h1 h2
    have hu : u ≤ s.g.N := h2
    have ho := hnum.out u h1 hu
    have : ((sortedOf s inv).g.V (s.g.V u).index).index = u := by
      show VRec.index (if _ then _ else _) = _
      rw [if_pos ⟨ho.1, ho.2.1⟩]
      exact ho.2.2
    exact ⟨ho.1, ho.2.1, this⟩

/-- Sorting, changing marks and sorting again changes marks only. -/
theorem sort_back {s s1 s2 : PGraph} {rot r} (hI : PInv s rot) (hn : s.g.dfsNumbered = true)
    (h1 : s.sortVertices = some (s1, r)) (h2 : Marked s1 s2) : ∃ s3, s2.sortVertices = some (s3, .ok) ∧ Marked s s3 := by
  obtain ⟨inv, hnum, e1, hI', _, hn', _⟩ := sort_ok hI hn
  have hp := (hI.numbered hn).2
  rw [e1] at h1
  cases h1
  have hI2 := h2.pinv hI'
  have hm := h2
  obtain ⟨F, hF, rfl⟩ := h2
  have hnum' : Numbering ((sortedOf s inv).setG ((sortedOf s inv).g.relabel F)).g (fun u => (s.g.V u).index) := by
    have := numbering_sorted hnum
    exact ⟨this.out, this.back⟩
  have hb := sortBody_eq hI2.inv hnum' (hI2.numbered hn').2
  refine ⟨sortedOf ((sortedOf s inv).setG ((sortedOf s inv).g.relabel F)) (fun u => (s.g.V u).index), ?_, ?_⟩
  · have hn2 : ((sortedOf s inv).setG ((sortedOf s inv).g.relabel F)).g.dfsNumbered = true := hn'
    simp only [PGraph.sortVertices, hn2, if_true, hb]
    rfl
  · have := sortedOf_marked hm (fun u => (s.g.V u).index)
    rw [sortedOf_twice hI hnum hp] at this
    exact (marked_markAll s).trans this

/-- `h1` and `s1` are `h` and `s` in a common numbering: if only one of them is sorted by DFS number, that one is
sorted back. -/
def Aligned (h s h1 s1 : PGraph) : Prop :=
  (h.g.sortedByDfi = s.g.sortedByDfi ∧ h1 = h ∧ s1 = s) ∨
  (h.g.sortedByDfi = true ∧ s.g.sortedByDfi = false ∧ h.sortVertices = some (h1, .ok) ∧ s1 = s) ∨
  (h.g.sortedByDfi = false ∧ s.g.sortedByDfi = true ∧ h1 = h ∧ s.sortVertices = some (s1, .ok))

theorem PInv.isNumbered {s : PGraph} {rot} (h : PInv s rot) (hs : s.g.sortedByDfi = true) : s.g.dfsNumbered = true := by
  cases hn : s.g.dfsNumbered with
  | true => rfl
  | false => rw [h.unsorted hn] at hs; exact hs

theorem adjacent_iff {g : Graph} {rot} (h : Inv g rot) {u w : Nat} : Adjacent g u w ↔ w ∈ heads g (rot u) := by
  unfold Adjacent
  constructor
  · rintro ⟨l, h1, h2⟩
    by_cases hu : u < g.vSize
    · rw [neighbors_eq h hu] at h1
      cases h1; exact h2
    · exfalso
      unfold neighbors walk getArc rdV at h1
      rw [if_neg hu] at h1
      simp at h1
  · intro hw
    obtain ⟨e, he, _⟩ := List.mem_map.1 hw
    exact ⟨_, neighbors_eq h (h.links.vert u e he).2, hw⟩

theorem noVirtual {s : PGraph} {rot} (h : PInv s rot) (v : Nat) (hv : s.g.N < v) : rot v = [] := by
  cases hr : rot v with
  | nil => rfl
  | cons e K => have := (h.prim v e (by rw [hr]; simp)).2; omega

theorem testSubgraph_spec {h s : PGraph} {rot rot'} (hh : PInv h rot) (hs : PInv s rot') (hN : h.g.N = s.g.N) :
    ∃ h1 s1 h' s' ans, Aligned h s h1 s1 ∧ testSubgraph h s = some (h', s', ans) ∧ Marked h h' ∧ Marked s s' ∧
      (ans = true ↔ ∀ u w, Adjacent h1.g u w → Adjacent s1.g u w) := by
  have key : ∀ {h s : PGraph} {rot rot'}, PInv h rot → PInv s rot' → h.g.N = s.g.N →
      ∃ s' d ok, subBody h s = some (s', d, ok) ∧ Marked s s' ∧
        ((ok && d == 2 * h.g.M) = true ↔ ∀ u w, Adjacent h.g u w → Adjacent s.g u w) := by
    intro h s rot rot' hh hs hN
    obtain ⟨F, d, ok, e1, e2, e3⟩ := subBody_spec hh.inv hs.inv hN.symm
    refine ⟨_, d, ok, e1, ⟨F, e2, rfl⟩, e3.trans ?_⟩
    simp only [adjacent_iff hh.inv, adjacent_iff hs.inv]
    constructor
    · rintro ⟨ha, _⟩ u w hw
      obtain ⟨e, he, _⟩ := List.mem_map.1 hw
      have := hh.prim u e he
      exact ha u this.1 this.2 w hw
    · exact fun ha => ⟨fun u _ _ w hw => ha u w hw, noVirtual hh⟩
  unfold testSubgraph
  cases hsh : h.g.sortedByDfi with
  | false =>
    cases hss : s.g.sortedByDfi with
    | false =>
      obtain ⟨s', d, ok, e1, e2, e3⟩ := key hh hs hN
      refine ⟨h, s, h, s', _, .inl ⟨by rw [hsh, hss], rfl, rfl⟩, ?_, Marked.refl _, e2, e3⟩
      simp [sortIf, hsh, e1]
    | true =>
      obtain ⟨inv, hnum, f1, f2, f3, f4, f5⟩ := sort_ok hs (PInv.isNumbered hs hss)
      obtain ⟨s', d, ok, e1, e2, e3⟩ := key hh f2 (hN.trans f3.order.symm)
      obtain ⟨s3, e4, e5⟩ := sort_back hs (PInv.isNumbered hs hss) f1 e2
      refine ⟨h, sortedOf s inv, h, s3, _, .inr (.inr ⟨hsh, hss, rfl, f1⟩), ?_, Marked.refl _, e5, e3⟩
      simp [sortIf, hsh, e1, f1, e4]
  | true =>
    cases hss : s.g.sortedByDfi with
    | false =>
      obtain ⟨inv, hnum, f1, f2, f3, f4, f5⟩ := sort_ok hh (PInv.isNumbered hh hsh)
      obtain ⟨s', d, ok, e1, e2, e3⟩ := key f2 hs (f3.order.trans hN)
      obtain ⟨s3, e4, e5⟩ := sort_back hh (PInv.isNumbered hh hsh) f1 (Marked.refl _)
      refine ⟨sortedOf h inv, s, s3, s', _, .inr (.inl ⟨hsh, hss, f1, rfl⟩), ?_, e5, e2, e3⟩
      have hM : s3.g.M = (sortedOf h inv).g.M := by obtain ⟨F, _, rfl⟩ := e5; rfl
      rw [hsh] at f5
      simp [sortIf, e1, f1, f5, e4, hM]
    | true =>
      obtain ⟨s', d, ok, e1, e2, e3⟩ := key hh hs hN
      refine ⟨h, s, h, s', _, .inl ⟨by rw [hsh, hss], rfl, rfl⟩, ?_, Marked.refl _, e2, e3⟩
      simp [sortIf, hsh, e1]

end Test
end Verif
