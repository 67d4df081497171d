import Verif.Test.NonPlanar
import Verif.Test.Euler

/-
A plane embedding of a graph excludes obstructions in it.
-/
namespace Verif
namespace Test
open Graph Map Equiv Equiv.Perm Props DFS

theorem adjacent_range {s : PGraph} {rot} (h : PInv s rot) {u w : Nat} (ha : Adjacent s.g u w) :
    (1 ≤ u ∧ u ≤ s.g.N) ∧ 1 ≤ w ∧ w ≤ s.g.N := by
  obtain ⟨e, he⟩ := (adjacent_arc h.inv).1 ha
  obtain ⟨h1, h2⟩ := (arcTo_iff h.inv).1 he
  have ht := h.inv.twins u e h1
  rw [h2] at ht
  exact ⟨h.prim u e h1, h.prim w _ ht⟩

/-- A renaming of the vertices that respects adjacency. -/
structure Renaming (s t : PGraph) (π : Nat → Nat) : Prop where
  rng : ∀ u, 1 ≤ u → u ≤ s.g.N → 1 ≤ π u ∧ π u ≤ t.g.N
  inj : ∀ u w, 1 ≤ u → u ≤ s.g.N → 1 ≤ w → w ≤ s.g.N → π u = π w → u = w
  adj : ∀ u w, Adjacent s.g u w → Adjacent t.g (π u) (π w)

theorem Renaming.comp {s t r : PGraph} {π π' : Nat → Nat} (h : Renaming s t π) (h' : Renaming t r π') :
    Renaming s r (π' ∘ π) where
  rng u h1 h2 := h'.rng _ (h.rng u h1 h2).1 (h.rng u h1 h2).2
  inj u w h1 h2 h3 h4 he :=
    h.inj u w h1 h2 h3 h4 (h'.inj _ _ (h.rng u h1 h2).1 (h.rng u h1 h2).2 (h.rng w h3 h4).1 (h.rng w h3 h4).2 he)
  adj u w ha := h'.adj _ _ (h.adj u w ha)

theorem renaming_of {s t : PGraph} {rot rot'} (hs : PInv s rot) (ht : PInv t rot') (hN : s.g.N = t.g.N)
    (h : SubAdj s t) : ∃ π, Renaming s t π := by
  unfold SubAdj at h
  rcases h2 : s.g.sortedByDfi <;> rcases h3 : t.g.sortedByDfi <;> simp only [h2, h3, if_true, reduceCtorEq, if_false] at h
  · exact ⟨id, ⟨fun u h1 h2 => ⟨h1, hN ▸ h2⟩, fun _ _ _ _ _ _ he => he, h⟩⟩
  · obtain ⟨⟨inv, hnum⟩, -⟩ := ht.numbered (PInv.isNumbered ht h3)
    refine ⟨inv, fun u h1 h2 => ?_, fun u w h1 h2 h3 h4 he => ?_, fun u w ha => ?_⟩
    · obtain ⟨k1, k2, -⟩ := hnum.back u h1 (hN ▸ h2)
      exact ⟨k1, k2⟩
    · obtain ⟨-, -, k1⟩ := hnum.back u h1 (hN ▸ h2)
      obtain ⟨-, -, k2⟩ := hnum.back w h3 (hN ▸ h4)
      rw [← k1, he, k2]
    · obtain ⟨u', w', ha', hb', hadj⟩ := h u w ((namedAdjacent_unsorted h2 u w).2 ha)
      obtain ⟨r1, r2⟩ := adjacent_range ht hadj
      unfold IsName at ha' hb'
      rw [if_pos h3] at ha' hb'
      rw [getIndex_some r1 rfl] at ha'
      rw [getIndex_some r2 rfl] at hb'
      have k1 := (hnum.out u' r1.1 r1.2).2.2
      have k2 := (hnum.out w' r2.1 r2.2).2.2
      rw [Option.some.inj ha'] at k1
      rw [Option.some.inj hb'] at k2
      rw [k1, k2]
      exact hadj
  · obtain ⟨⟨inv, hnum⟩, -⟩ := hs.numbered (PInv.isNumbered hs h2)
    refine ⟨fun u => (s.g.V u).index, fun u h1 h2 => ?_, fun u w h1 h2 h3 h4 he => ?_, fun u w ha => ?_⟩
    · obtain ⟨k1, k2, -⟩ := hnum.out u h1 h2
      exact ⟨k1, hN ▸ k2⟩
    · have he : (s.g.V u).index = (s.g.V w).index := he
      rw [← (hnum.out u h1 h2).2.2, he, (hnum.out w h3 h4).2.2]
    · obtain ⟨r1, r2⟩ := adjacent_range hs ha
      refine (namedAdjacent_unsorted h3 _ _).1 (h _ _ ⟨u, w, ?_, ?_, ha⟩)
      · unfold IsName
        rw [if_pos h2, getIndex_some r1 rfl]
      · unfold IsName
        rw [if_pos h2, getIndex_some r2 rfl]
  · exact ⟨id, ⟨fun u h1 h2 => ⟨h1, hN ▸ h2⟩, fun _ _ _ _ _ _ he => he, h⟩⟩

/-- The darts of a graph without parallel edges in a graph that contains it. -/
theorem dart_map {o s : PGraph} {rot rot'} (ho : PInv o rot) (hs : PInv s rot') {π : Nat → Nat} (hπ : Renaming o s π)
    (hsimple : ∀ d d' : Dart rot, own o.g d = own o.g d' → own o.g (al ho.inv.weak d) = own o.g (al ho.inv.weak d') → d = d') :
    ∃ ι : Dart rot → Dart rot', Function.Injective ι ∧ (∀ d, ι (al ho.inv.weak d) = al hs.inv.weak (ι d)) ∧
      ∀ d d', SameCycle (sg hs.inv.weak) (ι d) (ι d') ↔ own o.g d = own o.g d' := by
  have hex : ∀ d : Dart rot, ∃ e : Dart rot', own s.g e = π (own o.g d) ∧
      own s.g (al hs.inv.weak e) = π (own o.g (al ho.inv.weak d)) := by
    intro d
    have ha : Adjacent o.g (own o.g d) (own o.g (al ho.inv.weak d)) :=
      (adjacent_arc ho.inv).2 ⟨d.1, (arcTo_iff ho.inv).2 ⟨own_mem ho.inv.weak d, (own_al ho.inv.weak d).symm⟩⟩
    obtain ⟨e, he⟩ := (adjacent_arc hs.inv).1 (hπ.adj _ _ ha)
    obtain ⟨h1, h2⟩ := (arcTo_iff hs.inv).1 he
    exact ⟨⟨e, _, h1⟩, own_of hs.inv.weak h1, by rw [own_al]; exact h2⟩
  choose f hf1 hf2 using hex
  let ι : Dart rot → Dart rot' := fun d => if d.1 % 2 = 0 then f d else al hs.inv.weak (f (al ho.inv.weak d))
  have hown : ∀ d, own s.g (ι d) = π (own o.g d) := by
    intro d
    by_cases hd : d.1 % 2 = 0
    · simp only [ι, if_pos hd]; exact hf1 d
    · simp only [ι, if_neg hd]; rw [hf2, al_al]
  have hal : ∀ d, ι (al ho.inv.weak d) = al hs.inv.weak (ι d) := by
    intro d
    have ht : (al ho.inv.weak d).1 % 2 = 0 ↔ ¬ d.1 % 2 = 0 := by
      rw [al_val, twin_eq]
      split <;> omega
    by_cases hd : d.1 % 2 = 0
    · have : ¬ (al ho.inv.weak d).1 % 2 = 0 := fun hc => ht.1 hc hd
      simp only [ι, if_pos hd, if_neg this, al_al]
    · simp only [ι, if_neg hd, if_pos (ht.2 hd), al_al]
  have hinj : ∀ d d', own s.g (ι d) = own s.g (ι d') → own o.g d = own o.g d' := by
    intro d d' he
    rw [hown, hown] at he
    have r1 := ho.prim _ _ (own_mem ho.inv.weak d)
    have r2 := ho.prim _ _ (own_mem ho.inv.weak d')
    exact hπ.inj _ _ r1.1 r1.2 r2.1 r2.2 he
  refine ⟨ι, fun d d' he => hsimple d d' (hinj d d' (by rw [he])) (hinj _ _ (by rw [hal, hal, he])), hal, fun d d' => ?_⟩
  rw [same_sg]
  exact ⟨hinj d d', fun he => by rw [hown, hown, he]⟩

/-- A graph of which a subdivision of K5 or K3,3 is a part has no plane embedding. -/
theorem no_plane {o s : PGraph} {rot rot'} (ho : PInv o rot) (hs : PInv s rot') {π : Nat → Nat} (hπ : Renaming o s π)
    (hp : PlaneEmbedding s) (hsub : IsSubdivision o.g 5 edgesK5 ∨ IsSubdivision o.g 6 edgesK33) : False := by
  have hfin := dart_finite hs.inv.weak
  rcases hsub with hsub | hsub
  · obtain ⟨B, c, h1, h2, h3, h4⟩ := realised_of ho.inv hsub (by decide) (by decide) (by decide) (by decide) (by decide)
    have hR : Shape ho.inv 5 4 edgesK5 B c :=
      ⟨h1, h2, h3, h4, ho.prim, fun i hi => by
        rw [(h1.deg i hi).2]
        have key : ∀ i, i < 5 → (edgesK5.filter fun p => decide (p.1 = i)).length +
            (edgesK5.filter fun p => decide (p.2 = i)).length = 4 := by decide
        exact key i hi, by decide⟩
    obtain ⟨ι, k1, k2, k3⟩ := dart_map ho hs hπ fun d d' => hR.simple ho.inv
    exact hR.not_k5 ho.inv (al_al hs.inv.weak) (al_ne hs.inv.weak) (plane_flat hs hp) k1 k2 k3 rfl rfl
  · obtain ⟨B, c, h1, h2, h3, h4⟩ := realised_of ho.inv hsub (by decide) (by decide) (by decide) (by decide) (by decide)
    have hR : Shape ho.inv 6 3 edgesK33 B c :=
      ⟨h1, h2, h3, h4, ho.prim, fun i hi => by
        rw [(h1.deg i hi).2]
        have key : ∀ i, i < 6 → (edgesK33.filter fun p => decide (p.1 = i)).length +
            (edgesK33.filter fun p => decide (p.2 = i)).length = 3 := by decide
        exact key i hi, by decide⟩
    obtain ⟨ι, k1, k2, k3⟩ := dart_map ho hs hπ fun d d' => hR.simple ho.inv
    exact hR.not_k33 ho.inv (al_al hs.inv.weak) (al_ne hs.inv.weak) (plane_flat hs hp) k1 k2 k3 rfl rfl (by decide)

end Test
end Verif
