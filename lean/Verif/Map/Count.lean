import Verif.Map.Restrict
import Mathlib.Algebra.Order.BigOperators.Group.Finset

/-
Counting the faces of the part of a plane map given by some of its edges.
-/
namespace Verif.Map
open Equiv Equiv.Perm

variable {D : Type*} [Finite D]

/-- Number of classes that meet a set. -/
noncomputable def hit (r : Setoid D) (S : Set D) : ℕ := (Quotient.mk r '' S).ncard
/-- Number of the others. -/
noncomputable def off (r : Setoid D) (S : Set D) : ℕ := (Quotient.mk r '' S)ᶜ.ncard

theorem hit_off (r : Setoid D) (S : Set D) : hit r S + off r S = cls r :=
  Set.ncard_add_ncard_compl _

theorem off_le {r r' : Setoid D} {S : Set D} (h : ∀ x, (∀ y, r x y → y ∉ S) → ∀ y, r' x y → r x y) :
    off r S ≤ off r' S := by
  have hq : ∀ q ∈ (Quotient.mk r '' S)ᶜ, ∀ y, r q.out y → y ∉ S := by
    intro q hq y hy hS
    refine hq ⟨y, hS, ?_⟩
    rw [← Quotient.out_eq q]
    exact Quotient.sound (r.symm hy)
  refine Set.ncard_le_ncard_of_injOn (fun q => Quotient.mk r' q.out) ?_ ?_ (Set.toFinite _)
  · rintro q hm ⟨y, hS, hy⟩
    exact hq q hm y (h _ (hq q hm) y (r'.symm (Quotient.exact hy))) hS
  · intro q hm q' hm' he
    have := h _ (hq q hm) _ (Quotient.exact he)
    rw [← Quotient.out_eq q, ← Quotient.out_eq q']
    exact Quotient.sound this

/-- A set that a permutation does not leave contains whole cycles. -/
theorem stays {f : Perm D} {U : D → Prop} (h : ∀ y, U y ↔ U (f y)) {x y : D} (hx : U x) (hy : SameCycle f x y) : U y := by
  let r : Setoid D := ⟨fun a b => U a ↔ U b, fun _ => Iff.rfl, fun h => h.symm, fun h h' => h.trans h'⟩
  exact ((cycle_le (r := r) h) hy).1 hx

variable {α : Perm D} (hα : ∀ x, α (α x) = x)
include hα

/-- The classes off `S` of the face permutation are cycles of the vertex permutation. -/
theorem off_face (σ : Perm D) {S : Set D} (hS : Closed α S) :
    off (SameCycle.setoid (σ * restr hα S hS)) S ≤ off (SameCycle.setoid σ) S := by
  refine off_le fun x hx y hy => ?_
  have hf : ∀ z, z ∉ S → (σ * restr hα S hS) z = σ z := fun z hz => by rw [mul_apply, restr_not hα hS hz]
  refine stays (f := σ) (U := SameCycle (σ * restr hα S hS) x) (fun z => ⟨fun hz => ?_, fun hz => ?_⟩) (SameCycle.refl _ _) hy
  · rw [← hf z (hx z hz)]
    exact hz.trans (same_step _ z)
  · have h1 : SameCycle (σ * restr hα S hS) x ((σ * restr hα S hS)⁻¹ (σ z)) := by
      refine hz.trans ⟨-1, ?_⟩
      simp
    have h2 := hf _ (hx _ h1)
    have h3 : (σ * restr hα S hS) ((σ * restr hα S hS)⁻¹ (σ z)) = σ z := by
      rw [← mul_apply, mul_inv_cancel, one_apply]
    rw [h3] at h2
    rw [σ.injective h2]
    exact h1

/-- The cycles off `S` of the vertex permutation are components. -/
theorem off_joined (σ : Perm D) {S : Set D} (hS : Closed α S) :
    off (SameCycle.setoid σ) S ≤ off (joined σ (restr hα S hS)) S := by
  refine off_le fun x hx y hy => ?_
  let r : Setoid D := ⟨fun a b => SameCycle σ x a ↔ SameCycle σ x b, fun _ => Iff.rfl, fun h => h.symm, fun h h' => h.trans h'⟩
  have h1 : joined σ (restr hα S hS) ≤ r := by
    refine sup_le (cycle_le fun z => ?_) (cycle_le fun z => ?_)
    · exact ⟨fun hz => hz.trans (same_step _ z), fun hz => hz.trans (same_step σ z).symm⟩
    · by_cases hz : z ∈ S
      · have hz' : restr hα S hS z ∈ S := by rw [restr_mem hα hS hz]; exact hS z hz
        exact ⟨fun k => absurd hz (hx _ k), fun k => absurd hz' (hx _ k)⟩
      · rw [restr_not hα hS hz]
  exact (h1 hy).1 (SameCycle.refl _ _)

/-- Faces of a part of a plane map: at least as many as Euler's formula gives for a connected one. -/
theorem face_bound [DecidableEq D] (hne : ∀ x, α x ≠ x) {σ : Perm D} (hF : Flat σ α) {S : Set D} (hS : Closed α S)
    (hn : S.Nonempty) :
    S.ncard + 4 ≤ 2 * hit (SameCycle.setoid (σ * restr hα S hS)) S + 2 * hit (SameCycle.setoid σ) S := by
  have h1 := Flat.restr hα hF hS
  have h2 := cyc_restr hα hne hS
  have h3 := off_face hα σ hS
  have h4 := off_joined hα σ hS
  have h5 := hit_off (SameCycle.setoid (σ * restr hα S hS)) S
  have h6 := hit_off (SameCycle.setoid σ) S
  have h7 := hit_off (joined σ (restr hα S hS)) S
  have h8 : 1 ≤ hit (joined σ (restr hα S hS)) S := (Set.ncard_pos (Set.toFinite _)).2 (hn.image _)
  unfold Flat cyc at h1
  unfold cyc at h2
  omega

/-- Turning at a vertex: the face of a dart of `S` goes on with another dart of `S` if there is one. -/
theorem turn (σ : Perm D) {S : Set D} (hS : Closed α S) {y z' : D} (hy : y ∈ S) (hz : z' ∈ S) (h1 : SameCycle σ (α y) z')
    (h2 : z' ≠ α y) : ∃ z ∈ S, SameCycle σ (α y) z ∧ z ≠ α y ∧ SameCycle (σ * restr hα S hS) y z := by
  classical
  obtain ⟨n, hn⟩ := h1.exists_nat_pow_eq
  have hn0 : n ≠ 0 := fun h => h2 (by rw [← hn, h, pow_zero, one_apply])
  have hex : ∃ k, (σ ^ (k + 1)) (α y) ∈ S := ⟨n - 1, by rw [Nat.sub_add_cancel (by omega), hn]; exact hz⟩
  obtain ⟨k, hk, hmin⟩ : ∃ k, (σ ^ (k + 1)) (α y) ∈ S ∧ ∀ i, i < k → (σ ^ (i + 1)) (α y) ∉ S :=
    ⟨Nat.find hex, Nat.find_spec hex, fun i hi => Nat.find_min hex hi⟩
  have hstep : ∀ i, i ≤ k → SameCycle (σ * restr hα S hS) y ((σ ^ (i + 1)) (α y)) := by
    intro i
    induction i with
    | zero =>
      intro _
      refine ⟨1, ?_⟩
      rw [zpow_one, mul_apply, restr_mem hα hS hy, zero_add, pow_one]
    | succ i ih =>
      intro hi
      refine (ih (by omega)).trans ⟨1, ?_⟩
      rw [zpow_one, mul_apply, restr_not hα hS (hmin i (by omega)), pow_succ' σ (i + 1), mul_apply]
  refine ⟨_, hk, ⟨(k + 1 : ℕ), by rw [zpow_natCast]⟩, fun he => h2 ?_, hstep k le_rfl⟩
  have hper : ∀ m, (σ ^ ((k + 1) * m)) (α y) = α y := by
    intro m
    induction m with
    | zero => rfl
    | succ m ih => rw [Nat.mul_succ, Nat.add_comm, pow_add, mul_apply, ih, he]
  have hr : (σ ^ (n % (k + 1))) (α y) = z' := by
    rw [← hn]
    conv_rhs => rw [← Nat.mod_add_div n (k + 1), pow_add, mul_apply, hper]
  rcases Nat.eq_zero_or_pos (n % (k + 1)) with h0 | h0
  · rw [← hr, h0, pow_zero, one_apply]
  · have hlt : n % (k + 1) < k + 1 := Nat.mod_lt n (Nat.succ_pos k)
    refine absurd ?_ (hmin (n % (k + 1) - 1) (by omega))
    rw [Nat.sub_add_cancel h0, hr]
    exact hz

omit hα in
/-- Classes with at least `m` elements in `X`. -/
theorem hit_mul_le {r : Setoid D} {S X : Set D} {m : ℕ}
    (h : ∀ x ∈ S, ∃ L : List D, L.Nodup ∧ L.length = m ∧ ∀ y ∈ L, y ∈ X ∧ r y x) : m * hit r S ≤ X.ncard := by
  classical
  have := Fintype.ofFinite D
  have := Fintype.ofFinite (Quotient r)
  have hX := Set.ncard_eq_toFinset_card' X
  have hH : hit r S = (Quotient.mk r '' S).toFinset.card := Set.ncard_eq_toFinset_card' _
  rw [hX, hH]
  have key : m * (Quotient.mk r '' S).toFinset.card ≤
      (X.toFinset.filter fun y => Quotient.mk r y ∈ (Quotient.mk r '' S).toFinset).card := by
    refine Finset.mul_card_image_le_card_of_maps_to (f := Quotient.mk r) (fun y hy => (Finset.mem_filter.1 hy).2) m ?_
    intro q hq
    obtain ⟨x, hx, rfl⟩ := Set.mem_toFinset.1 hq
    obtain ⟨L, h1, h2, h3⟩ := h x hx
    rw [← h2, ← List.toFinset_card_of_nodup h1]
    refine Finset.card_le_card fun y hy => ?_
    obtain ⟨k1, k2⟩ := h3 y (List.mem_toFinset.1 hy)
    have k3 : Quotient.mk r y = Quotient.mk r x := Quotient.sound k2
    rw [Finset.mem_filter, Finset.mem_filter, k3]
    exact ⟨⟨Set.mem_toFinset.2 k1, hq⟩, rfl⟩
  exact key.trans (Finset.card_le_card (Finset.filter_subset _ _))

end Verif.Map
