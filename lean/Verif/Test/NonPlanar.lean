import Verif.Test.ThetaSub
import Verif.Map.Count

/-
No plane map contains a subdivision of K5 or K3,3.
-/
namespace Verif
namespace Test
open Graph Map Equiv Equiv.Perm Props DFS

section
variable {g : Graph} {rot : Nat → List Nat} (h : Inv g rot)

/-- A subdivision by its paths, as `realised_of` gives it. -/
structure Shape (n k : Nat) (E : List (Nat × Nat)) (B : Nat → Nat) (c : Nat × Nat → Dart rot) : Prop where
  real : Realised h n E B c
  rng : ∀ i, i < n → 1 ≤ B i ∧ B i ≤ g.N
  cls : ∀ v, 1 ≤ v → v ≤ g.N → (rot v).length = 0 ∨ (rot v).length = 2 ∨ ∃ i, i < n ∧ v = B i
  cov : ∀ v, 1 ≤ v → v ≤ g.N → (rot v).length = 2 → ∃ p ∈ E, v ∈ ins h.weak (c p)
  prim : ∀ u e, e ∈ rot u → 1 ≤ u ∧ u ≤ g.N
  deg : ∀ i, i < n → (rot (B i)).length = k
  big : 2 < k

variable {n k : Nat} {E : List (Nat × Nat)} {B : Nat → Nat} {c : Nat × Nat → Dart rot} (hR : Shape h n k E B c)
include hR

theorem Shape.branch {x : Dart rot} (hx : ¬ Deg2 g x) : ∃ i, i < n ∧ own g x = B i := by
  have hm := own_mem h.weak x
  obtain ⟨p1, p2⟩ := hR.prim _ _ hm
  rcases hR.cls _ p1 p2 with k1 | k1 | k1
  · rw [List.eq_nil_of_length_eq_zero k1] at hm
    cases hm
  · exact absurd k1 hx
  · exact k1

/-- The ends of a path are different images, joined in `E`. -/
theorem Shape.ends {x : Dart rot} (hx : ¬ Deg2 g x) :
    ∃ i j, i < n ∧ j < n ∧ own g x = B i ∧ fin h.weak x = B j ∧ ((i, j) ∈ E ∨ (j, i) ∈ E) := by
  obtain ⟨i, hi, h1⟩ := hR.branch h hx
  rcases hR.real.at h i hi x h1 with ⟨p, hp, rfl, rfl⟩ | ⟨p, hp, rfl, rfl⟩
  · exact ⟨p.1, p.2, hi, (hR.real.range p hp).2.1, h1, hR.real.stop p hp, .inl hp⟩
  · exact ⟨p.2, p.1, hi, (hR.real.range p hp).1, h1,
      by rw [back_fin h.weak (hR.real.not2 h p hp), hR.real.start p hp], .inr hp⟩

theorem Shape.ne {x : Dart rot} (hx : ¬ Deg2 g x) : own g x ≠ fin h.weak x := by
  obtain ⟨i, j, hi, hj, h1, h2, h3⟩ := hR.ends h hx
  rw [h1, h2]
  intro hc
  have := hR.real.inj i j hi hj hc
  subst this
  rcases h3 with h3 | h3
  · exact (hR.real.range _ h3).2.2 rfl
  · exact (hR.real.range _ h3).2.2 rfl

theorem Shape.unique {x y : Dart rot} (hx : ¬ Deg2 g x) (h1 : own g x = own g y) (h2 : fin h.weak x = fin h.weak y) :
    x = y := by
  obtain ⟨i, j, hi, hj, k1, k2, -⟩ := hR.ends h hx
  exact hR.real.unique h hi hj k1 k2 (h1 ▸ k1) (h2 ▸ k2)

/-- Every dart is on the path of a dart at an image. -/
theorem Shape.reach (d : Dart rot) : ∃ x, ¬ Deg2 g x ∧ ∃ i, i ≤ plen h.weak x ∧ (ph h.weak ^ i) x = d := by
  have hth := thread h.weak
  by_cases hd : Deg2 g d
  · have hm := own_mem h.weak d
    obtain ⟨p1, p2⟩ := hR.prim _ _ hm
    obtain ⟨p, hp, hin⟩ := hR.cov _ p1 p2 hd
    obtain ⟨i, hi, ho⟩ := (mem_ins h.weak).1 hin
    have hnot := hR.real.not2 h p hp
    rcases deg2_cases h.weak (plen_min h.weak hi) ho with h1 | h1
    · exact ⟨c p, hnot, i + 1, hi, h1.symm⟩
    · refine ⟨back h.weak (c p), back_not h.weak hnot, ?_⟩
      have h2 : sg h.weak ((ph h.weak ^ (i + 1)) (c p)) = al h.weak ((ph h.weak ^ i) (c p)) := by
        have := hth.turn (al h.weak ((ph h.weak ^ i) (c p))) ((deg2_pow h.weak (c p) i).2 (plen_min h.weak hi))
        rw [pow_succ', mul_apply]
        exact this
      rw [h2] at h1
      have h3 : al h.weak d ∈ dartsOf (sg h.weak) (al h.weak) (Deg2 g) (c p) :=
        mem_dartsOf.2 ⟨i, le_of_lt hi, by rw [h1, al_al]; rfl⟩
      obtain ⟨j, hj, he⟩ := mem_dartsOf.1 ((mem_rev hth hnot).2 h3)
      exact ⟨j, hj, he⟩
  · exact ⟨d, hd, 0, Nat.zero_le _, rfl⟩

/-- There are no parallel edges: a vertex of degree two is not joined twice to the same vertex. -/
theorem Shape.simple2 {d d' : Dart rot} (hd : Deg2 g d) (h1 : own g d = own g d')
    (h2 : own g (al h.weak d) = own g (al h.weak d')) : d = d' := by
  by_contra hne
  have hth := thread h.weak
  have hs : d' = sg h.weak d := (deg2_cases h.weak hd h1).resolve_left fun hc => hne hc.symm
  by_cases hw : Deg2 g (al h.weak d)
  · have hal : al h.weak d' = sg h.weak (al h.weak d) :=
      (deg2_cases h.weak hw h2).resolve_left fun hc => hne ((al h.weak).injective hc).symm
    have e1 : ph h.weak d = al h.weak d' := hal.symm
    have e2 : ph h.weak (al h.weak d') = d := by
      show sg h.weak (al h.weak (al h.weak d')) = d
      rw [al_al, hs, hth.turn d hd]
    obtain ⟨x, hx, i, -, hi⟩ := hR.reach h d
    have hd' : Deg2 g (al h.weak d') := by unfold Deg2 at hw ⊢; rw [← h2]; exact hw
    have key : ∀ i x, (ph h.weak ^ i) x = d ∨ (ph h.weak ^ i) x = al h.weak d' → x = d ∨ x = al h.weak d' := by
      intro i
      induction i with
      | zero => intro x hx; exact hx
      | succ i ih =>
        intro x hx
        refine ih x ?_
        rw [pow_succ', mul_apply] at hx
        rcases hx with hx | hx
        · right; rw [← e2] at hx; exact (ph h.weak).injective hx
        · left; rw [← e1] at hx; exact (ph h.weak).injective hx
    rcases key i x (.inl hi) with rfl | rfl
    · exact hx hd
    · exact hx hd'
  · have e1 : ph h.weak (al h.weak d) = d' := by
      show sg h.weak (al h.weak (al h.weak d)) = d'
      rw [al_al, hs]
    have hl : plen h.weak (al h.weak d) = 1 := by
      refine len_eq (fun i hi => ?_) ?_
      · have : i = 0 := by omega
        subst this
        show Deg2 g ((ph h.weak ^ 1) (al h.weak d))
        rw [pow_one, e1]
        unfold Deg2
        rw [← h1]
        exact hd
      · show ¬ Deg2 g ((ph h.weak ^ (1 + 1)) (al h.weak d))
        rw [pow_succ', mul_apply, pow_one, e1]
        show ¬ Deg2 g (sg h.weak (al h.weak d'))
        unfold Deg2
        rw [own_sg, ← h2]
        exact hw
    refine hR.ne h hw ?_
    rw [fin_eq, hl, pow_succ', mul_apply, pow_one, e1]
    show _ = own g (sg h.weak (al h.weak d'))
    rw [own_sg, h2]

/-- There are no parallel edges. -/
theorem Shape.simple {d d' : Dart rot} (h1 : own g d = own g d') (h2 : own g (al h.weak d) = own g (al h.weak d')) :
    d = d' := by
  by_cases hd : Deg2 g d
  · exact hR.simple2 h hd h1 h2
  · by_cases hw : Deg2 g (al h.weak d)
    · have := hR.simple2 h hw h2 (by rw [al_al, al_al]; exact h1)
      exact (al h.weak).injective this
    · have hf : ∀ x : Dart rot, ¬ Deg2 g (al h.weak x) → fin h.weak x = own g (al h.weak x) := by
        intro x hx
        have hl : plen h.weak x = 0 := by
          refine len_eq (fun i hi => absurd hi (Nat.not_lt_zero i)) ?_
          show ¬ Deg2 g (sg h.weak (al h.weak x))
          unfold Deg2
          rw [own_sg]
          exact hx
        rw [fin_eq, hl]
        show own g (sg h.weak (al h.weak x)) = _
        rw [own_sg]
      refine hR.unique h hd h1 ?_
      rw [hf d hw, hf d' (by unfold Deg2 at hw ⊢; rw [← h2]; exact hw), h2]

/-- No vertex has degree one. -/
theorem Shape.move (y : Dart rot) : sg h.weak y ≠ y := by
  by_cases hy : Deg2 g y
  · exact (thread h.weak).move y hy
  · obtain ⟨i, hi, ho⟩ := hR.branch h hy
    have hl := hR.deg i hi
    rw [← ho] at hl
    have hb := hR.big
    obtain ⟨j, hj, he⟩ := List.mem_iff_getElem.1 (own_mem h.weak y)
    have hy : y = ⟨(rot (own g y))[j], _, List.getElem_mem hj⟩ := Subtype.ext he.symm
    intro hc
    have h1 := sg_get h.weak hj
    rw [← hy, hc, ← he] at h1
    have h2 := (h.links.nodup (own g y)).getElem_inj_iff.1 h1
    rcases Nat.lt_or_ge (j + 1) (rot (own g y)).length with h3 | h3
    · rw [Nat.mod_eq_of_lt h3] at h2
      omega
    · have h4 : j + 1 = (rot (own g y)).length := by omega
      rw [h4, Nat.mod_self] at h2
      omega

/-- Vertices of degree two. -/
def deg2Verts (g : Graph) (rot : Nat → List Nat) : Finset Nat := (Finset.Icc 1 g.N).filter fun v => (rot v).length = 2

omit hR in
include h in
theorem count_at (A : Finset Nat) : {d : Dart rot | own g d ∈ A}.ncard = ∑ v ∈ A, (rot v).length := by
  classical
  have := dart_finite h.weak
  have := Fintype.ofFinite (Dart rot)
  rw [Set.ncard_eq_toFinset_card']
  rw [Finset.card_eq_sum_card_fiberwise (f := own g) (t := A) (fun d hd => by
    have := Finset.mem_coe.1 hd
    rw [Set.mem_toFinset] at this
    exact this)]
  refine Finset.sum_congr rfl fun v hv => ?_
  obtain ⟨L, hL⟩ := exists_dartList (rot := rot) v
  have hn : L.Nodup := by
    have := h.links.nodup v
    rw [← hL] at this
    exact List.Nodup.of_map _ this
  have he : ({d ∈ {d : Dart rot | own g d ∈ A}.toFinset | own g d = v} : Finset (Dart rot)) = L.toFinset := by
    ext d
    rw [Finset.mem_filter, Set.mem_toFinset, List.mem_toFinset]
    constructor
    · rintro ⟨-, ho⟩
      have hm : d.1 ∈ rot v := ho ▸ own_mem h.weak d
      rw [← hL] at hm
      obtain ⟨z, hz, he⟩ := List.mem_map.1 hm
      exact (Subtype.ext he : z = d) ▸ hz
    · intro hd
      have hm : d.1 ∈ rot v := hL ▸ List.mem_map.2 ⟨d, hd, rfl⟩
      have ho := own_eq h.weak hm
      exact ⟨by show own g d ∈ A; rw [ho]; exact hv, ho⟩
  rw [he, List.toFinset_card_of_nodup hn, ← hL, List.length_map]

theorem Shape.images : ((Finset.range n).image B).card = n ∧ ∑ v ∈ (Finset.range n).image B, (rot v).length = k * n := by
  have h1 : ((Finset.range n).image B).card = n := by
    rw [Finset.card_image_of_injOn, Finset.card_range]
    intro i hi j hj he
    exact hR.real.inj i j (Finset.mem_range.1 hi) (Finset.mem_range.1 hj) he
  refine ⟨h1, ?_⟩
  rw [Finset.sum_const_nat (m := k), h1, Nat.mul_comm]
  intro v hv
  obtain ⟨i, hi, rfl⟩ := Finset.mem_image.1 hv
  exact hR.deg i (Finset.mem_range.1 hi)

theorem Shape.own_mem (d : Dart rot) : own g d ∈ deg2Verts g rot ∪ (Finset.range n).image B := by
  rw [Finset.mem_union]
  by_cases hd : Deg2 g d
  · left
    exact Finset.mem_filter.2 ⟨Finset.mem_Icc.2 (hR.prim _ _ (Map.own_mem h.weak d)), hd⟩
  · right
    obtain ⟨i, hi, ho⟩ := hR.branch h hd
    rw [ho]
    exact Finset.mem_image.2 ⟨i, Finset.mem_range.2 hi, rfl⟩

theorem Shape.disj : Disjoint (deg2Verts g rot) ((Finset.range n).image B) := by
  rw [Finset.disjoint_left]
  intro v hv hv'
  obtain ⟨i, hi, rfl⟩ := Finset.mem_image.1 hv'
  have h1 := (Finset.mem_filter.1 hv).2
  have h2 := hR.deg i (Finset.mem_range.1 hi)
  have := hR.big
  omega

theorem Shape.card_darts : Nat.card (Dart rot) = 2 * (deg2Verts g rot).card + k * n := by
  have h1 := count_at h (deg2Verts g rot ∪ (Finset.range n).image B)
  have h2 : {d : Dart rot | own g d ∈ deg2Verts g rot ∪ (Finset.range n).image B} = Set.univ :=
    Set.eq_univ_of_forall fun d => hR.own_mem h d
  rw [h2, Set.ncard_univ, Finset.sum_union (hR.disj h), (hR.images h).2] at h1
  have h3 : ∑ v ∈ deg2Verts g rot, (rot v).length = (deg2Verts g rot).card * 2 :=
    Finset.sum_const_nat fun v hv => (Finset.mem_filter.1 hv).2
  omega

theorem Shape.card_branch : {d : Dart rot | ¬ Deg2 g d}.ncard = k * n := by
  have h1 := count_at h ((Finset.range n).image B)
  rw [(hR.images h).2] at h1
  rw [← h1]
  congr 1
  ext d
  constructor
  · intro hd
    obtain ⟨i, hi, ho⟩ := hR.branch h hd
    show own g d ∈ (Finset.range n).image B
    rw [ho]
    exact Finset.mem_image.2 ⟨i, Finset.mem_range.2 hi, rfl⟩
  · intro hd hd2
    refine Finset.disjoint_left.1 (hR.disj h) ?_ hd
    exact Finset.mem_filter.2 ⟨Finset.mem_Icc.2 (hR.prim _ _ (Map.own_mem h.weak d)), hd2⟩

section
variable {D : Type*} [Finite D] {σ α : Perm D} (hα : ∀ x, α (α x) = x) (hne : ∀ x, α x ≠ x) (hF : Flat σ α)
  {ι : Dart rot → D} (hi : Function.Injective ι) (hal : ∀ d, ι (al h.weak d) = α (ι d))
  (hv : ∀ d d', SameCycle σ (ι d) (ι d') ↔ own g d = own g d')

omit [Finite D] hR in
include hal in
theorem range_closed : Closed α (Set.range ι) := by
  rintro _ ⟨d, rfl⟩
  exact ⟨al h.weak d, hal d⟩

/-- On the same facial walk of the part of the map that is the image of the darts. -/
def OnFace (σ : Perm D) (hα : ∀ x, α (α x) = x) (hal : ∀ d, ι (al h.weak d) = α (ι d)) (x y : Dart rot) : Prop :=
  SameCycle (σ * restr hα (Set.range ι) (range_closed h hal)) (ι x) (ι y)

include hi hv

theorem Shape.step (x : Dart rot) : ∃ y, own g y = own g (al h.weak x) ∧ y ≠ al h.weak x ∧ OnFace h σ hα hal x y := by
  have h1 := hR.move h (al h.weak x)
  have h2 : SameCycle σ (α (ι x)) (ι (sg h.weak (al h.weak x))) := by
    rw [← hal]
    exact (hv _ _).2 (own_sg h.weak _).symm
  obtain ⟨z, ⟨y, rfl⟩, k1, k2, k3⟩ := turn hα σ (range_closed h hal) ⟨x, rfl⟩ ⟨_, rfl⟩ h2 (by
    rw [← hal]
    exact fun hc => h1 (hi hc))
  rw [← hal] at k1 k2
  exact ⟨y, ((hv _ _).1 k1).symm, fun hc => k2 (by rw [hc]), k3⟩

theorem Shape.along {x : Dart rot} : ∀ i, i ≤ plen h.weak x → OnFace h σ hα hal x ((ph h.weak ^ i) x) := by
  intro i
  induction i with
  | zero => intro _; exact SameCycle.refl _ _
  | succ i ih =>
    intro hl
    obtain ⟨y, k1, k2, k3⟩ := hR.step h hα hi hal hv ((ph h.weak ^ i) x)
    have h2 : Deg2 g (al h.weak ((ph h.weak ^ i) x)) := (deg2_pow h.weak x i).2 (plen_min h.weak hl)
    have h3 := (deg2_cases h.weak h2 k1.symm).resolve_left k2
    have h4 : (ph h.weak ^ (i + 1)) x = y := by rw [pow_succ', mul_apply, h3]; rfl
    rw [h4]
    exact (ih (by omega)).trans k3

/-- A path is followed by another one that starts where it ends. -/
theorem Shape.next {x : Dart rot} (hx : ¬ Deg2 g x) :
    ∃ y, ¬ Deg2 g y ∧ own g y = fin h.weak x ∧ fin h.weak y ≠ own g x ∧ OnFace h σ hα hal x y := by
  obtain ⟨y, k1, k2, k3⟩ := hR.step h hα hi hal hv ((ph h.weak ^ plen h.weak x) x)
  have hb : al h.weak ((ph h.weak ^ plen h.weak x) x) = back h.weak x := rfl
  rw [hb] at k1 k2
  have hy : ¬ Deg2 g y := by
    have := back_not h.weak hx
    unfold Deg2 at this ⊢
    rwa [k1]
  refine ⟨y, hy, k1, fun hc => k2 (hR.unique h hy k1 ?_), (hR.along h hα hi hal hv _ le_rfl).trans k3⟩
  rw [hc, back_fin h.weak hx]

include hα hal hF hne in
/-- The count of the faces. -/
theorem Shape.faces {m : Nat} (hE : E ≠ [])
    (hm : ∀ x : Dart rot, ¬ Deg2 g x → ∃ L : List (Dart rot), L.Nodup ∧ L.length = m ∧
      ∀ y ∈ L, ¬ Deg2 g y ∧ OnFace h σ hα hal y x) :
    ∃ f, k * n + 4 ≤ 2 * f + 2 * n ∧ m * f ≤ k * n := by
  classical
  have := dart_finite h.weak
  have hS := range_closed h hal
  obtain ⟨p, hp⟩ := List.exists_mem_of_ne_nil E hE
  have h1 := face_bound hα hne hF hS ⟨ι (c p), c p, rfl⟩
  have h2 : (Set.range ι).ncard = Nat.card (Dart rot) := Set.ncard_range_of_injective hi
  have h3 := hR.card_darts h
  have h4 : hit (SameCycle.setoid σ) (Set.range ι) ≤ (deg2Verts g rot).card + n := by
    have k1 : hit (SameCycle.setoid σ) (Set.range ι) ≤
        ((deg2Verts g rot ∪ (Finset.range n).image B : Finset Nat) : Set Nat).ncard := by
      unfold hit
      refine Set.ncard_le_ncard_of_injOn (fun q => if hq : ∃ d, Quotient.mk _ (ι d) = q then own g hq.choose else 0)
        ?_ ?_ (Set.toFinite _)
      · rintro _ ⟨_, ⟨d, rfl⟩, rfl⟩
        have hq : ∃ d', Quotient.mk (SameCycle.setoid σ) (ι d') = Quotient.mk _ (ι d) := ⟨d, rfl⟩
        simp only [hq, dif_pos]
        exact hR.own_mem h _
      · rintro _ ⟨_, ⟨d, rfl⟩, rfl⟩ _ ⟨_, ⟨d', rfl⟩, rfl⟩ he
        have hq : ∃ e, Quotient.mk (SameCycle.setoid σ) (ι e) = Quotient.mk _ (ι d) := ⟨d, rfl⟩
        have hq' : ∃ e, Quotient.mk (SameCycle.setoid σ) (ι e) = Quotient.mk _ (ι d') := ⟨d', rfl⟩
        simp only [hq, hq', dif_pos] at he
        rw [← hq.choose_spec, ← hq'.choose_spec]
        exact Quotient.sound ((hv _ _).2 he)
    rw [Set.ncard_coe_finset, Finset.card_union_of_disjoint (hR.disj h), (hR.images h).1] at k1
    exact k1
  refine ⟨_, ?_, hit_mul_le (S := Set.range ι) (X := ι '' {d : Dart rot | ¬ Deg2 g d}) (m := m)
    (r := SameCycle.setoid (σ * restr hα (Set.range ι) hS)) ?_ |>.trans ?_⟩
  · omega
  · rintro _ ⟨d, rfl⟩
    obtain ⟨x, hx, i, hl, rfl⟩ := hR.reach h d
    obtain ⟨L, l1, l2, l3⟩ := hm x hx
    refine ⟨L.map ι, (List.nodup_map_iff hi).2 l1, by rw [List.length_map, l2], fun y hy => ?_⟩
    obtain ⟨z, hz, rfl⟩ := List.mem_map.1 hy
    obtain ⟨m1, m2⟩ := l3 z hz
    exact ⟨⟨z, m1, rfl⟩, m2.trans (hR.along h hα hi hal hv i hl)⟩
  · rw [Set.ncard_image_of_injective _ hi, hR.card_branch h]

include hα hal hF hne in
/-- With five images of degree four there are too few arcs. -/
theorem Shape.not_k5 (h5 : n = 5) (h4 : k = 4) : False := by
  subst h5 h4
  have hE : E ≠ [] := by
    intro he
    have := (hR.real.deg 0 (by decide)).2
    rw [hR.deg 0 (by decide), he] at this
    cases this
  obtain ⟨f, h1, h2⟩ := hR.faces h hα hne hF hi hal hv (m := 3) hE (fun x hx => by
    obtain ⟨y, y1, y2, y3, y4⟩ := hR.next h hα hi hal hv hx
    obtain ⟨z, z1, z2, z3, z4⟩ := hR.next h hα hi hal hv y1
    have e1 := hR.ne h hx
    have e2 := hR.ne h y1
    refine ⟨[x, y, z], ?_, rfl, ?_⟩
    · have k1 : x ≠ y := fun hc => e1 (by rw [← y2, ← hc])
      have k2 : x ≠ z := fun hc => y3 (by rw [← z2, ← hc])
      have k3 : y ≠ z := fun hc => e2 (by rw [← z2, ← hc])
      simp [k1, k2, k3]
    · simp only [List.mem_cons, List.not_mem_nil, or_false]
      rintro w (rfl | rfl | rfl)
      · exact ⟨hx, SameCycle.refl _ _⟩
      · exact ⟨y1, y4.symm⟩
      · exact ⟨z1, (y4.trans z4).symm⟩)
  omega

include hα hal hF hne in
/-- With six images of degree three on two sides there are too few arcs. -/
theorem Shape.not_k33 (h6 : n = 6) (h3 : k = 3) (hside : ∀ p ∈ E, p.1 < 3 ∧ 3 ≤ p.2) : False := by
  subst h6 h3
  have hE : E ≠ [] := by
    intro he
    have := (hR.real.deg 0 (by decide)).2
    rw [hR.deg 0 (by decide), he] at this
    cases this
  let side : Nat → Prop := fun v => ∃ i, i < 3 ∧ v = B i
  have hs : ∀ x : Dart rot, ¬ Deg2 g x → (side (fin h.weak x) ↔ ¬ side (own g x)) := by
    intro x hx
    obtain ⟨i, j, hi', hj, h1, h2, h3⟩ := hR.ends h hx
    have key : ∀ i, i < 6 → (side (B i) ↔ i < 3) := by
      intro i hi
      constructor
      · rintro ⟨j, hj, he⟩
        rw [hR.real.inj i j hi (by omega) he]
        exact hj
      · intro h
        exact ⟨i, h, rfl⟩
    rw [h1, h2, key i hi', key j hj]
    rcases h3 with h3 | h3
    · have := hside _ h3
      simp only at this
      omega
    · have := hside _ h3
      simp only at this
      omega
  obtain ⟨f, h1, h2⟩ := hR.faces h hα hne hF hi hal hv (m := 4) hE (fun x hx => by
    obtain ⟨y, y1, y2, y3, y4⟩ := hR.next h hα hi hal hv hx
    obtain ⟨z, z1, z2, z3, z4⟩ := hR.next h hα hi hal hv y1
    obtain ⟨w, w1, w2, w3, w4⟩ := hR.next h hα hi hal hv z1
    have s1 := hs x hx
    have s2 := hs y y1
    have s3 := hs z z1
    rw [← y2] at s1
    rw [← z2] at s2
    rw [← w2] at s3
    refine ⟨[x, y, z, w], ?_, rfl, ?_⟩
    · have k1 : x ≠ y := fun hc => by rw [← hc] at s1; exact iff_not_self s1
      have k2 : x ≠ z := fun hc => y3 (by rw [← z2, ← hc])
      have k3 : x ≠ w := fun hc => by
        rw [← hc, s2, s1] at s3
        exact iff_not_self (s3.trans (not_congr Classical.not_not))
      have k4 : y ≠ z := fun hc => by rw [← hc] at s2; exact iff_not_self s2
      have k5 : y ≠ w := fun hc => z3 (by rw [← w2, ← hc])
      have k6 : z ≠ w := fun hc => by rw [← hc] at s3; exact iff_not_self s3
      simp [k1, k2, k3, k4, k5, k6]
    · simp only [List.mem_cons, List.not_mem_nil, or_false]
      rintro v (rfl | rfl | rfl | rfl)
      · exact ⟨hx, SameCycle.refl _ _⟩
      · exact ⟨y1, y4.symm⟩
      · exact ⟨z1, (y4.trans z4).symm⟩
      · exact ⟨w1, ((y4.trans z4).trans w4).symm⟩)
  omega

end

end

end Test
end Verif
