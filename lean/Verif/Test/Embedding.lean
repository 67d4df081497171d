import Verif.Spec.Tests
import Verif.Test.SubSort
import Verif.Test.External

/-
What `_CheckEmbeddingIntegrity` computes.
-/
namespace Verif.Props
open Verif Verif.Graph Verif.Test Verif.DFS

theorem namedAdjacent_unsorted {s : PGraph} (h : s.g.sortedByDfi = false) (a b : Nat) :
    NamedAdjacent s a b ↔ Adjacent s.g a b := by
  unfold NamedAdjacent IsName
  simp [h]

theorem adjacent_arc {g : Graph} {rot} (h : Inv g rot) {u w : Nat} : Adjacent g u w ↔ ∃ e, ArcTo g u e w := by
  rw [adjacent_iff h]
  simp only [arcTo_iff h, heads, List.mem_map]

theorem namedAdjacent_sorted {s s1 : PGraph} {rot} (h : PInv s rot) (hs : s.g.sortedByDfi = true)
    (h1 : s.sortVertices = some (s1, .ok)) (a b : Nat) : NamedAdjacent s a b ↔ Adjacent s1.g a b := by
  obtain ⟨inv, hnum, f1, f2, f3, -, -⟩ := sort_ok h (PInv.isNumbered h hs)
  rw [f1] at h1
  cases h1
  unfold NamedAdjacent IsName
  simp only [hs, if_true]
  constructor
  · rintro ⟨u, w, ha, hb, hadj⟩
    obtain ⟨e, he⟩ := (adjacent_arc h.inv).1 hadj
    obtain ⟨h1, h2⟩ := (arcTo_iff h.inv).1 he
    have hu := h.prim u e h1
    have ht := h.inv.twins u e h1
    rw [h2] at ht
    rw [getIndex_some hu rfl] at ha
    rw [getIndex_some (h.prim w _ ht) rfl] at hb
    cases ha; cases hb
    exact (adjacent_arc f2.inv).2 ⟨e, f3.heads u e w he⟩
  · intro hadj
    obtain ⟨e, he⟩ := (adjacent_arc f2.inv).1 hadj
    obtain ⟨h1, h2⟩ := (arcTo_iff f2.inv).1 he
    have ha := f2.prim a e h1
    rw [show (sortedOf s inv).g.N = s.g.N from f3.order] at ha
    obtain ⟨g1, g2, g3⟩ := hnum.back a ha.1 ha.2
    have he' : e ∈ rot (inv a) := by
      have := h1
      unfold sortRot at this
      rwa [if_pos ha] at this
    have hA : ArcTo s.g (inv a) e (s.g.E e).nbr := (arcTo_iff h.inv).2 ⟨he', rfl⟩
    have hB := f3.heads _ _ _ hA
    have hb := ((arcTo_iff f2.inv).1 hB).2
    have hw := h.prim _ _ (h.inv.twins _ _ he')
    refine ⟨inv a, (s.g.E e).nbr, ?_, ?_, (adjacent_arc h.inv).2 ⟨e, hA⟩⟩
    · rw [getIndex_some ⟨g1, g2⟩ rfl, g3]
    · rw [getIndex_some hw rfl, ← h2, hb]

/-- The adjacencies of `h` are adjacencies of `s`, as the subgraph test compares them. -/
def SubAdj (h s : PGraph) : Prop :=
  if h.g.sortedByDfi = s.g.sortedByDfi then ∀ u w, Adjacent h.g u w → Adjacent s.g u w
  else ∀ a b, NamedAdjacent h a b → NamedAdjacent s a b

theorem testSubgraph_adj {h s : PGraph} {rot rot'} (hh : PInv h rot) (hs : PInv s rot') (hN : h.g.N = s.g.N) :
    ∃ h' s' ans, testSubgraph h s = some (h', s', ans) ∧ Marked h h' ∧ Marked s s' ∧ (ans = true ↔ SubAdj h s) := by
  obtain ⟨h1, s1, h', s', ans, hA, e, m1, m2, hans⟩ := testSubgraph_spec hh hs hN
  refine ⟨h', s', ans, e, m1, m2, hans.trans ?_⟩
  unfold SubAdj
  rcases hA with ⟨h2, rfl, rfl⟩ | ⟨h2, h3, h4, rfl⟩ | ⟨h2, h3, rfl, h4⟩
  · rw [if_pos h2]
  · rw [if_neg (by rw [h2, h3]; decide)]
    simp only [namedAdjacent_unsorted h3, namedAdjacent_sorted hh h2 h4]
  · rw [if_neg (by rw [h2, h3]; decide)]
    simp only [namedAdjacent_unsorted h2, namedAdjacent_sorted hs h3 h4]

/-- Two states with the same lists. -/
structure Alike (rot : Nat → List Nat) (s s' : PGraph) : Prop where
  inv : PInv s rot
  inv' : PInv s' rot
  order : s'.g.N = s.g.N
  size : s'.g.M = s.g.M
  nbr : ∀ e, (s'.g.E e).nbr = (s.g.E e).nbr
  info : s'.VI = s.VI
  index : ∀ v, (s'.g.V v).index = (s.g.V v).index
  sorted : s'.g.sortedByDfi = s.g.sortedByDfi

theorem Alike.symm {rot s s'} (h : Alike rot s s') : Alike rot s' s :=
  ⟨h.inv', h.inv, h.order.symm, h.size.symm, fun e => (h.nbr e).symm, h.info.symm, fun v => (h.index v).symm, h.sorted.symm⟩

theorem Alike.trans {rot s s' s''} (h : Alike rot s s') (h' : Alike rot s' s'') : Alike rot s s'' :=
  ⟨h.inv, h'.inv', h'.order.trans h.order, h'.size.trans h.size, fun e => (h'.nbr e).trans (h.nbr e), h'.info.trans h.info,
   fun v => (h'.index v).trans (h.index v), h'.sorted.trans h.sorted⟩

theorem Alike.of_marked {rot s s'} (hI : PInv s rot) (h : Marked s s') : Alike rot s s' := by
  have h' := h.pinv hI
  obtain ⟨F, hF, rfl⟩ := h
  exact ⟨hI, h', rfl, rfl, fun _ => rfl, rfl, fun _ => rfl, rfl⟩

theorem hasList_eq {g : Graph} {rot} (h : Inv g rot) {v L} (hv : IsVertex g v) : HasList g v L ↔ L = rot v := by
  constructor
  · intro hL
    have h1 := (hasList h.links (vSize_iff.1 hv).2).1
    rw [hL.1] at h1
    exact Option.some.inj h1
  · rintro rfl
    exact hasList h.links (vSize_iff.1 hv).2

section
variable {rot : Nat → List Nat} {s s' : PGraph} (h : Alike rot s s')
include h

theorem Alike.live (e) : Live s'.g e ↔ Live s.g e := by rw [live_iff h.inv.inv, live_iff h.inv'.inv]

theorem Alike.arcTo (u e w) : ArcTo s'.g u e w ↔ ArcTo s.g u e w := by
  rw [arcTo_iff h.inv.inv, arcTo_iff h.inv'.inv, h.nbr]

theorem Alike.adjacent (u w) : Adjacent s'.g u w ↔ Adjacent s.g u w := by
  rw [adjacent_arc h.inv.inv, adjacent_arc h.inv'.inv]
  simp only [h.arcTo]

theorem Alike.joined (u w) : Joined s'.g u w ↔ Joined s.g u w := by
  constructor
  · intro hj
    induction hj with
    | refl => exact .refl _
    | step _ ha ih => exact .step ih ((h.arcTo _ _ _).1 ha)
  · intro hj
    induction hj with
    | refl => exact .refl _
    | step _ ha ih => exact .step ih ((h.arcTo _ _ _).2 ha)

theorem Alike.isVertex (v) : IsVertex s'.g v ↔ IsVertex s.g v := by unfold IsVertex; rw [h.order]

theorem Alike.faceStep (a b) : FaceStep s'.g a b ↔ FaceStep s.g a b := by
  unfold FaceStep
  constructor
  · rintro ⟨v, L, hv, hL, hf⟩
    have hv' := (h.isVertex v).1 hv
    exact ⟨v, L, hv', (hasList_eq h.inv.inv hv').2 ((hasList_eq h.inv'.inv hv).1 hL), hf⟩
  · rintro ⟨v, L, hv, hL, hf⟩
    have hv' := (h.isVertex v).2 hv
    exact ⟨v, L, hv', (hasList_eq h.inv'.inv hv').2 ((hasList_eq h.inv.inv hv).1 hL), hf⟩

theorem Alike.sameFace (a b) : SameFace s'.g a b ↔ SameFace s.g a b := by
  constructor
  · intro hj
    induction hj with
    | refl => exact .refl _
    | step _ ha ih => exact .step ih ((h.faceStep _ _).1 ha)
  · intro hj
    induction hj with
    | refl => exact .refl _
    | step _ ha ih => exact .step ih ((h.faceStep _ _).2 ha)

theorem Alike.primary (u) : IsPrimary s' u ↔ IsPrimary s u := by unfold IsPrimary; rw [h.order]

theorem Alike.rootList : rootList s' = rootList s := by unfold Test.rootList; rw [h.order, h.info]

theorem Alike.edgedRoots : edgedRoots s' rot = edgedRoots s rot := by unfold Test.edgedRoots; rw [h.rootList]

theorem Alike.faces {F} : Transversal (Live s'.g) (SameFace s'.g) F ↔ Transversal (Live s.g) (SameFace s.g) F := by
  have h1 : Live s'.g = Live s.g := funext fun e => propext (h.live e)
  have h2 : SameFace s'.g = SameFace s.g := funext fun e => funext fun f => propext (h.sameFace e f)
  rw [h1, h2]

theorem Alike.namedAdjacent (a b) : NamedAdjacent s' a b ↔ NamedAdjacent s a b := by
  have h1 : ∀ u a, IsName s' u a ↔ IsName s u a := by
    intro u a
    unfold IsName getIndex rdV vSize
    rw [h.sorted, h.order]
    split
    · split
      · simp [h.index]
      · rfl
    · rfl
  unfold NamedAdjacent
  simp only [h1, h.adjacent]

theorem Alike.onFirstFace (v w) : OnFirstFace h.inv'.inv.weak v w ↔ OnFirstFace h.inv.inv.weak v w := by
  have key : ∀ {s s' : PGraph} (h : Alike rot s s'), OnFirstFace h.inv'.inv.weak v w → OnFirstFace h.inv.inv.weak v w := by
    intro s s' h
    rintro (hl | ⟨x, d, h1, h2, h3⟩)
    · exact .inl hl
    · refine .inr ⟨x, d, h1, ?_, ?_⟩
      · rw [← sameFace_dart h.inv.inv]
        rw [← sameFace_dart h.inv'.inv] at h2
        exact (h.sameFace _ _).1 h2
      · exact Map.own_eq h.inv.inv.weak (h3 ▸ Map.own_mem h.inv'.inv.weak d)
  exact ⟨key h, key h.symm⟩

end

theorem SubAdj.congr {h h' s s' : PGraph} {rot rot'} (a : Alike rot h h') (b : Alike rot' s s') :
    SubAdj h' s' ↔ SubAdj h s := by
  unfold SubAdj
  rw [a.sorted, b.sorted]
  simp only [a.adjacent, b.adjacent, a.namedAdjacent, b.namedAdjacent]

/-- Same adjacencies, as the subgraph test compares them. -/
theorem subAdj_both {s t : PGraph} : SubAdj s t ∧ SubAdj t s ↔ SameAdjacencies s t := by
  unfold SubAdj SameAdjacencies
  by_cases hd : s.g.sortedByDfi = t.g.sortedByDfi
  · rw [if_pos hd, if_pos hd.symm, if_pos hd]
    exact ⟨fun ⟨a, b⟩ u w => ⟨a u w, b u w⟩, fun a => ⟨fun u w => (a u w).1, fun u w => (a u w).2⟩⟩
  · rw [if_neg hd, if_neg (Ne.symm hd), if_neg hd]
    exact ⟨fun ⟨a, b⟩ u w => ⟨a u w, b u w⟩, fun a => ⟨fun u w => (a u w).1, fun u w => (a u w).2⟩⟩

theorem checkEmbedding_spec {s t : PGraph} {rot rot'} (hs : PInv s rot) (ht : PInv t rot') (hN : s.g.N = t.g.N)
    (flags : Nat) :
    ∃ s' t' r, checkEmbedding flags s t = some (s', t', r) ∧ Alike rot s s' ∧ Alike rot' t t' ∧ (r = .ok ∨ r = .notok) ∧
      (r = .ok ↔ SameAdjacencies s t ∧
        (∃ L, Transversal (Live s.g) (SameFace s.g) L ∧
          L.length + s.g.N = s.g.M + (rootList s).length + (edgedRoots s rot).length) ∧
        (flags = 2 → ∀ w, IsPrimary s w → ∃ v, v ∈ rootList s ∧ OnFirstFace hs.inv.weak v w)) := by
  obtain ⟨s1, t1, a1, e1, m1, n1, f1⟩ := testSubgraph_adj hs ht hN
  have A1 := Alike.of_marked hs m1
  have B1 := Alike.of_marked ht n1
  unfold checkEmbedding
  rw [e1]
  simp only [Option.bind_eq_bind, Option.bind_some]
  cases a1 with
  | false =>
    refine ⟨s1, t1, .notok, rfl, A1, B1, .inr rfl, ⟨fun h => (by cases h), fun h => ?_⟩⟩
    have := f1.2 (subAdj_both.2 h.1).1
    cases this
  | true =>
    simp only [Bool.not_true, Bool.false_eq_true, if_false]
    obtain ⟨t2, s2, a2, e2, n2, m2, f2⟩ := testSubgraph_adj B1.inv' A1.inv' (by rw [B1.order, A1.order, hN])
    rw [e2]
    simp only [Option.bind_some]
    have A2 := A1.trans (Alike.of_marked A1.inv' m2)
    have B2 := B1.trans (Alike.of_marked B1.inv' n2)
    rw [SubAdj.congr B1 A1] at f2
    cases a2 with
    | false =>
      refine ⟨s2, t2, .notok, rfl, A2, B2, .inr rfl, ⟨fun h => (by cases h), fun h => ?_⟩⟩
      have := f2.2 (subAdj_both.2 h.1).2
      cases this
    | true =>
      simp only [Bool.not_true, Bool.false_eq_true, if_false]
      have hadj : SameAdjacencies s t := subAdj_both.1 ⟨f1.1 rfl, f2.1 rfl⟩
      obtain ⟨Fl, r, L, e3, g1, g2, hL, hr, hok⟩ := checkFacial_spec A2.inv'
      rw [e3]
      simp only [Option.bind_some]
      have A3 : Alike rot s2 (s2.setG (flagged s2.g Fl [])) :=
        ⟨A2.inv', Test.PInv.flagged A2.inv' g1 g2, rfl, rfl, fun _ => rfl, rfl, fun _ => rfl, rfl⟩
      have A4 := A2.trans A3
      rw [A2.faces] at hL
      rw [A2.order, A2.size, A2.rootList, A2.edgedRoots] at hok
      have hok' : r = .ok ↔ ∃ L, Transversal (Live s.g) (SameFace s.g) L ∧
          L.length + s.g.N = s.g.M + (rootList s).length + (edgedRoots s rot).length := by
        rw [hok]
        constructor
        · exact fun h => ⟨L, hL, h⟩
        · rintro ⟨L', h1, h2⟩
          have h3 := face_count hs.inv hL
          have h4 := face_count hs.inv h1
          omega
      by_cases hr0 : r = .ok
      · subst hr0
        simp only [ne_eq, not_true_eq_false, if_false]
        by_cases hf : flags = 2
        · rw [if_pos hf]
          obtain ⟨F, r', e4, k1, k2, k3⟩ := checkExternal_spec A4.inv'
          rw [e4]
          have A5 := A4.trans (Alike.of_marked A4.inv' ⟨F, k1, rfl⟩)
          refine ⟨_, _, _, rfl, A5, B2, k2, ?_⟩
          rw [k3]
          have : ∀ v w, OnFirstFace A4.inv'.inv.weak v w ↔ OnFirstFace hs.inv.weak v w := fun v w => A4.onFirstFace v w
          simp only [A4.primary, A4.rootList, this]
          exact ⟨fun h => ⟨hadj, hok'.1 rfl, fun _ => h⟩, fun h => h.2.2 hf⟩
        · rw [if_neg hf]
          exact ⟨_, _, _, rfl, A4, B2, .inl rfl, ⟨fun _ => ⟨hadj, hok'.1 rfl, fun h => absurd h hf⟩, fun _ => rfl⟩⟩
      · rw [if_pos hr0]
        exact ⟨_, _, _, rfl, A4, B2, .inr rfl, ⟨fun h => by (cases h), fun h => absurd (hok'.2 h.2.1) hr0⟩⟩

theorem RootedOnce.rooted {s : PGraph} (h : RootedOnce s) : Rooted s := by
  intro u hu
  obtain ⟨r, hr, _⟩ := h u hu
  exact ⟨r, hr⟩

theorem RootedOnce.unique {s : PGraph} {rot} (hI : PInv s rot) (h : RootedOnce s) (r r' : Nat) (h1 : IsPrimary s r)
    (h2 : IsPrimary s r') (h3 : s.getParent r = some 0) (h4 : s.getParent r' = some 0) (h5 : Joined s.g r r') : r = r' := by
  obtain ⟨x, _, hx⟩ := h r h1
  rw [hx r h1 h3 (.refl _), hx r' h2 h4 h5]

theorem onFirstFace_joined {s : PGraph} {rot} (h : PInv s rot) {v w : Nat} (ho : OnFirstFace h.inv.weak v w) :
    Joined s.g v w := by
  rcases ho with ⟨_, rfl⟩ | ⟨x, d, h1, h2, rfl⟩
  · exact .refl _
  · have hx : Map.own s.g x = v := Map.own_eq h.inv.weak (List.mem_of_head? h1)
    rw [← hx, ← joined_iff h.inv]
    have := Map.dart_finite h.inv.weak
    refine Map.cycle_le (f := Map.ph h.inv.weak) (r := Map.joined _ _) (fun y => ?_) h2
    refine Setoid.trans' _ ((le_sup_right : Equiv.Perm.SameCycle.setoid (Map.al h.inv.weak) ≤ _) (Map.same_step _ _)) ?_
    exact (le_sup_left : Equiv.Perm.SameCycle.setoid (Map.sg h.inv.weak) ≤ _) (Map.same_step _ _)

/-- The facial walk of the first arc of `v`, in terms of arcs. -/
theorem onFirstFace_iff {s : PGraph} {rot} (h : PInv s rot) {v w : Nat} (hv : IsPrimary s v) :
    OnFirstFace h.inv.weak v w ↔
      (rot v = [] ∧ w = v) ∨ ∃ L a b, HasList s.g v L ∧ L.head? = some a ∧ SameFace s.g a b ∧ s.g.ArcAt w b := by
  have hv' : IsVertex s.g v := ⟨hv.1, by have := hv.2; omega⟩
  unfold OnFirstFace
  refine or_congr Iff.rfl ⟨?_, ?_⟩
  · rintro ⟨x, d, h1, h2, h3⟩
    exact ⟨rot v, x.1, d.1, (hasList_eq h.inv hv').2 rfl, h1, (sameFace_dart h.inv).2 h2,
      h.inv.arcAt.2 (h3 ▸ Map.own_mem h.inv.weak d)⟩
  · rintro ⟨L, a, b, h1, h2, h3, h4⟩
    rw [hasList_eq h.inv hv'] at h1
    subst h1
    have hb := h.inv.arcAt.1 h4
    exact ⟨⟨a, v, List.mem_of_head? h2⟩, ⟨b, w, hb⟩, h2, (sameFace_dart h.inv).1 h3, Map.own_of h.inv.weak hb⟩

theorem rootFace_iff {s : PGraph} {rot} (h : PInv s rot) (hr : RootedOnce s) :
    (∀ w, IsPrimary s w → ∃ v, v ∈ rootList s ∧ OnFirstFace h.inv.weak v w) ↔ RootFace s := by
  constructor
  · intro hh r hr1 hr2 v hj
    by_cases hv : v = r
    · exact .inl hv
    · right
      have hvp : IsPrimary s v := by
        cases hj with
        | refl => exact absurd rfl hv
        | step _ ha =>
          obtain ⟨h1, h2⟩ := (arcTo_iff h.inv).1 ha
          have := h.prim _ _ (h.inv.twins _ _ h1)
          rwa [h2] at this
      obtain ⟨r', h1, h2⟩ := hh v hvp
      obtain ⟨h3, h4⟩ := mem_rootList.1 h1
      have hj' := onFirstFace_joined h h2
      have : r = r' := hr.unique h r r' hr1 h3 hr2 h4 (Joined.trans hj (joined_symm h.inv hj'))
      subst this
      rcases (onFirstFace_iff h hr1).1 h2 with ⟨_, h5⟩ | h5
      · exact absurd h5 hv
      · exact h5
  · intro hh w hw
    obtain ⟨r, ⟨h1, h2, h3⟩, _⟩ := hr w hw
    refine ⟨r, mem_rootList.2 ⟨h1, h2⟩, ?_⟩
    rw [onFirstFace_iff h h1]
    rcases hh r h1 h2 w (joined_symm h.inv h3) with h4 | h4
    · subst h4
      cases hn : rot w with
      | nil => exact .inl ⟨rfl, rfl⟩
      | cons e K =>
        right
        have hw' : IsVertex s.g w := ⟨hw.1, by have := hw.2; omega⟩
        exact ⟨rot w, e, e, (hasList_eq h.inv hw').2 rfl, by rw [hn]; rfl, .refl _, h.inv.arcAt.2 (by rw [hn]; simp)⟩
    · exact .inr h4

theorem rootFace_oneFace {s : PGraph} {rot} (h : PInv s rot) (hr : Rooted s) (hf : RootFace s) : OneFace s := by
  rintro u hu ⟨w, hw⟩
  obtain ⟨r, h1, h2, h3⟩ := hr u hu
  have hrne : rot r ≠ [] := by
    intro hc
    cases joined_symm h.inv h3 with
    | refl => exact (adjacent_some h.inv).1 ⟨w, hw⟩ hc
    | step hb ha =>
      have : ∀ x, Joined s.g r x → x = r := by
        intro x hx
        induction hx with
        | refl => rfl
        | step _ ha ih =>
          obtain ⟨k, _⟩ := (arcTo_iff h.inv).1 ha
          rw [ih, hc] at k
          cases k
      have h4 := this _ hb
      obtain ⟨k, _⟩ := (arcTo_iff h.inv).1 ha
      rw [h4, hc] at k
      cases k
  obtain ⟨e, K, hK⟩ := List.exists_cons_of_ne_nil hrne
  have he : e ∈ rot r := by rw [hK]; simp
  have hr' : IsVertex s.g r := ⟨h1.1, by have := h1.2; omega⟩
  refine ⟨e, (live_iff h.inv).2 ⟨r, he⟩, fun v hv => ?_⟩
  rcases hf r h1 h2 v (Joined.trans (joined_symm h.inv h3) hv) with rfl | ⟨L, a, b, k1, k2, k3, k4⟩
  · exact ⟨e, .refl _, h.inv.arcAt.2 he⟩
  · rw [hasList_eq h.inv hr'] at k1
    subst k1
    rw [hK] at k2
    cases k2
    exact ⟨b, k3, k4⟩

end Verif.Props
