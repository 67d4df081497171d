import Verif.Map.Count
import Verif.Map.Join

/-
Maps with all vertices of each component on one face.
-/
namespace Verif.Map
open Equiv Equiv.Perm

variable {D : Type*} [Finite D] [DecidableEq D]

/-- Corners are chosen, at least one at every vertex; those of one component are on one face. -/
def Outer (σ α : Perm D) : Prop :=
  ∃ O : D → Prop, (∀ d, ∃ d', SameCycle σ d d' ∧ O d') ∧ ∀ d d', O d → O d' → joined σ α d d' → SameCycle (σ * α) d d'

omit [DecidableEq D] in
theorem face_le_joined (σ α : Perm D) : SameCycle.setoid (σ * α) ≤ joined σ α := by
  refine cycle_le fun x => ?_
  have h1 : joined σ α x (α x) := (le_sup_right : SameCycle.setoid α ≤ joined σ α) (same_step α x)
  have h2 : joined σ α (α x) (σ (α x)) := (le_sup_left : SameCycle.setoid σ ≤ joined σ α) (same_step σ (α x))
  exact (joined σ α).trans h1 h2

/-- Contraction of an edge. -/
theorem Outer.contract {σ α : Perm D} (h : Outer σ α) {e : D} (hs : ¬ SameCycle σ e (α e)) :
    Outer (swap e (σ (α e)) * σ) α := by
  obtain ⟨O, h1, h2⟩ := h
  have hst : SameCycle σ (α e) (σ (α e)) := same_step σ (α e)
  have hs' : ¬ SameCycle σ e (σ (α e)) := fun hh => hs (hh.trans hst.symm)
  have hne : σ (α e) ≠ e := fun hh => hs' (by rw [hh])
  have hj := left_joins hs'
  have hle : SameCycle.setoid σ ≤ SameCycle.setoid (swap e (σ (α e)) * σ) :=
    (left_merged' σ e (σ (α e))).trans (merged_le le_rfl hj)
  have hjo : joined (swap e (σ (α e)) * σ) α ≤ joined σ α := by
    refine sup_le ?_ le_sup_right
    have h3 : joined σ α e (σ (α e)) := face_le_joined σ α (same_step (σ * α) e)
    refine cycle_le fun x => ?_
    have h4 : joined σ α x (σ x) := (le_sup_left : SameCycle.setoid σ ≤ joined σ α) (same_step σ x)
    rw [mul_apply]
    by_cases q1 : σ x = e
    · rw [q1] at h4 ⊢
      rw [swap_apply_left]; exact (joined σ α).trans h4 h3
    · by_cases q2 : σ x = σ (α e)
      · rw [q2] at h4 ⊢
        rw [swap_apply_right]; exact (joined σ α).trans h4 ((joined σ α).symm h3)
      · rw [swap_apply_of_ne_of_ne q1 q2]; exact h4
  refine ⟨fun d => (O d ∧ d ≠ e) ∨ (O e ∧ d = σ (α e)), ?_, ?_⟩
  · intro d
    obtain ⟨d', k1, k2⟩ := h1 d
    by_cases hd : d' = e
    · subst hd
      exact ⟨σ (α d'), (hle k1 : SameCycle _ _ _).trans hj, .inr ⟨k2, rfl⟩⟩
    · exact ⟨d', hle k1, .inl ⟨k2, hd⟩⟩
  · have old : ∀ d, ((O d ∧ d ≠ e) ∨ (O e ∧ d = σ (α e))) → d ≠ e ∧ ∃ d0, O d0 ∧ SameCycle (σ * α) d d0 := by
      rintro d (⟨k1, k2⟩ | ⟨k1, rfl⟩)
      · exact ⟨k2, d, k1, SameCycle.refl _ _⟩
      · exact ⟨hne, e, k1, (same_step (σ * α) e : SameCycle _ _ _).symm⟩
    intro d d' k1 k2 k3
    obtain ⟨n1, a, a1, a2⟩ := old d k1
    obtain ⟨n2, b, b1, b2⟩ := old d' k2
    have hab : SameCycle (σ * α) a b := by
      refine h2 a b a1 b1 ?_
      exact (joined σ α).trans ((joined σ α).symm (face_le_joined σ α a2)) ((joined σ α).trans (hjo k3) (face_le_joined σ α b2))
    have hdd : SameCycle (σ * α) d d' := (a2.trans hab).trans b2.symm
    rw [mul_assoc]
    have hm := left_merged' (σ * α) e (σ (α e)) hdd
    have hfix : (swap e (σ (α e)) * (σ * α)) e = e := by
      rw [mul_apply, mul_apply, swap_apply_right]
    have hown : ∀ x, SameCycle (swap e (σ (α e)) * (σ * α)) x e → x = e := by
      intro x hx
      obtain ⟨i, hi⟩ := hx.symm
      have : ((swap e (σ (α e)) * (σ * α)) ^ i) e = e := by
        have hq : SameCycle (swap e (σ (α e)) * (σ * α)) e e := SameCycle.refl _ _
        exact zpow_apply_eq_self_of_apply_eq_self hfix i
      rw [← hi, this]
    rcases hm with hm | ⟨q1, q2⟩
    · exact hm
    · have r1 : SameCycle (swap e (σ (α e)) * (σ * α)) d (σ (α e)) := by
        rcases q1 with q | q
        · exact absurd (hown d q) n1
        · exact q
      have r2 : SameCycle (swap e (σ (α e)) * (σ * α)) d' (σ (α e)) := by
        rcases q2 with q | q
        · exact absurd (hown d' q) n2
        · exact q
      exact r1.trans r2.symm

/-- Removal of an edge. -/
theorem Outer.cut {σ α : Perm D} (h : Outer σ α) {a b : D} (hab : a ≠ b) (hs : SameCycle α a b) (hf : Flat σ α)
    (hf' : Flat σ (α * swap a b)) (hle : joined σ (α * swap a b) ≤ joined σ α) : Outer σ (α * swap a b) := by
  obtain ⟨O, h1, h2⟩ := h
  refine ⟨O, h1, fun d d' k1 k2 k3 => ?_⟩
  have hd := h2 d d' k1 k2 (hle k3)
  rw [← mul_assoc]
  have hm := swap_merged' (σ * α) a b hd
  by_cases hq : SameCycle (σ * α * swap a b) a b
  · exact merged_eq hq hm
  · have hφ : SameCycle (σ * α) a b := by
      by_contra hh
      exact hq (swap_joins hh)
    have hno : ¬ joined σ (α * swap a b) a b := by
      intro hj
      have hge : joined σ α ≤ joined σ (α * swap a b) := by
        refine sup_le le_sup_left ?_
        exact (swap_merged' α a b).trans (merged_le le_sup_right hj)
      have he := le_antisymm (cls_le hle) (cls_le hge)
      have c1 := cyc_swap_eq hab hs
      have c2 := cyc_swap_eq hab hφ
      unfold Flat at hf hf'
      rw [← mul_assoc] at hf'
      omega
    have up : ∀ x y, SameCycle (σ * α * swap a b) x y → joined σ (α * swap a b) x y := by
      intro x y hxy
      rw [mul_assoc] at hxy
      exact face_le_joined σ _ hxy
    rcases hm with hm | ⟨q1, q2⟩
    · exact hm
    · rcases q1 with q1 | q1 <;> rcases q2 with q2 | q2
      · exact SameCycle.trans q1 (SameCycle.symm q2)
      · exact absurd ((joined σ _).trans ((joined σ _).symm (up _ _ q1)) ((joined σ _).trans k3 (up _ _ q2))) hno
      · exact absurd ((joined σ _).trans ((joined σ _).symm (up _ _ q2)) ((joined σ _).trans ((joined σ _).symm k3) (up _ _ q1))) hno
      · exact SameCycle.trans q1 (SameCycle.symm q2)

theorem joined_cut {σ α : Perm D} {a b : D} (hs : SameCycle α a b) : joined σ (α * swap a b) ≤ joined σ α :=
  sup_le le_sup_left (((swap_merged α a b).trans (merged_eq hs)).trans le_sup_right)

section
variable {σ α : Perm D} (hα : ∀ x, α (α x) = x)

/-- Some edges of such a map. -/
theorem Outer.restr (h : Outer σ α) (hf : Flat σ α) {T : Set D} (hT : Closed α T) : Outer σ (Map.restr hα T hT) := by
  have key : ∀ (n : ℕ) (S : Set D) (hS : Closed α S), T ⊆ S → (S \ T).ncard = n → Outer σ (Map.restr hα S hS) → Outer σ (Map.restr hα T hT) := by
    intro n
    induction n using Nat.strong_induction_on with
    | _ n ih =>
      intro S hS hTS hn hO
      by_cases h0 : S ⊆ T
      · have : S = T := Set.Subset.antisymm h0 hTS
        subst this
        exact hO
      · obtain ⟨a, haS, haT⟩ := Set.not_subset.1 h0
        have haT' : α a ∉ T := fun h => haT (by have := hT _ h; rwa [hα] at this)
        have hlt : ((S \ {a, α a}) \ T).ncard < n := by
          rw [← hn]
          apply Set.ncard_lt_ncard _ (Set.toFinite _)
          refine ⟨fun x hx => ⟨hx.1.1, hx.2⟩, fun h => ?_⟩
          have := h ⟨haS, haT⟩
          exact this.1.2 (by simp)
        have hsub : T ⊆ S \ {a, α a} := by
          intro x hx
          refine ⟨hTS hx, ?_⟩
          rintro (h | h)
          · exact haT (h ▸ hx)
          · exact haT' (h ▸ hx)
        refine ih _ hlt _ (Closed.cut hα hS a) hsub rfl ?_
        rw [← restr_cut hα hS haS]
        by_cases hfix : α a = a
        · rw [hfix, swap_self]; exact hO
        · refine hO.cut (Ne.symm hfix) (restr_same hα hS haS) (Flat.restr hα hf hS) ?_ (joined_cut (restr_same hα hS haS))
          rw [restr_cut hα hS haS]
          exact Flat.restr hα hf _
  refine key _ Set.univ Closed.univ (Set.subset_univ _) rfl ?_
  rw [restr_univ]; exact h

omit [DecidableEq D] in
/-- From a corner the face goes on with a dart of `S` at the same vertex, if there is one. -/
theorem reach {S : Set D} (hS : Closed α S) {y z' : D} (hz : z' ∈ S) (h1 : SameCycle σ y z') :
    ∃ z ∈ S, SameCycle σ y z ∧ SameCycle (σ * Map.restr hα S hS) y z := by
  classical
  obtain ⟨n, hn⟩ := h1.exists_nat_pow_eq
  have hex : ∃ k, (σ ^ k) y ∈ S := ⟨n, by rw [hn]; exact hz⟩
  obtain ⟨k, hk, hmin⟩ : ∃ k, (σ ^ k) y ∈ S ∧ ∀ i, i < k → (σ ^ i) y ∉ S :=
    ⟨Nat.find hex, Nat.find_spec hex, fun i hi => Nat.find_min hex hi⟩
  have hstep : ∀ i, i ≤ k → SameCycle (σ * Map.restr hα S hS) y ((σ ^ i) y) := by
    intro i
    induction i with
    | zero => intro _; exact SameCycle.refl _ _
    | succ i ih =>
      intro hi
      refine (ih (by omega)).trans ⟨1, ?_⟩
      rw [zpow_one, mul_apply, restr_not hα hS (hmin i (by omega)), pow_succ' σ i, mul_apply]
  exact ⟨_, hk, ⟨(k : ℕ), by rw [zpow_natCast]⟩, hstep k le_rfl⟩

end

omit [DecidableEq D] in
/-- Classes with at least `m` elements in `X`, one of them with more. -/
theorem hit_mul_lt {r : Setoid D} {S X : Set D} {m : ℕ}
    (h : ∀ x ∈ S, ∃ L : List D, L.Nodup ∧ L.length = m ∧ ∀ y ∈ L, y ∈ X ∧ r y x) {x0 : D} {L0 : List D} (h1 : L0.Nodup)
    (h2 : L0.length = m + 1) (h3 : ∀ y ∈ L0, y ∈ X ∧ r y x0) : m * hit r S + 1 ≤ X.ncard := by
  classical
  cases L0 with
  | nil => simp at h2
  | cons y0 L1 =>
    have hy0 := h3 y0 (by simp)
    have hn := List.nodup_cons.1 h1
    have key := hit_mul_le (r := r) (S := S) (X := X \ {y0}) (m := m) (by
      intro x hx
      by_cases hr : r x x0
      · refine ⟨L1, hn.2, by simpa using h2, fun y hy => ?_⟩
        obtain ⟨a, b⟩ := h3 y (by simp [hy])
        refine ⟨⟨a, ?_⟩, r.trans b (r.symm hr)⟩
        rintro rfl
        exact hn.1 hy
      · obtain ⟨L, a, b, c⟩ := h x hx
        refine ⟨L, a, b, fun y hy => ⟨⟨(c y hy).1, ?_⟩, (c y hy).2⟩⟩
        rintro rfl
        exact hr (r.trans (r.symm (c _ hy).2) hy0.2))
    have := Set.ncard_sdiff_singleton_add_one hy0.1 (Set.toFinite X)
    omega

end Verif.Map
