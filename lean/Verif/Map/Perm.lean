import Mathlib.GroupTheory.Perm.Cycle.Basic
import Mathlib.SetTheory.Cardinal.Finite
import Mathlib.Data.Fintype.Option
import Mathlib.Data.Setoid.Basic

/-
Combinatorial maps: a pair of permutations of a finite set of darts. The Euler characteristic does not decrease
(relative to the number of components) when an edge is cut. Helper theory for the embedding tests.
-/
namespace Verif.Map
open Equiv Equiv.Perm

variable {D : Type*} [Finite D]

/-- Number of classes. -/
noncomputable def cls (r : Setoid D) : ℕ := Nat.card (Quotient r)

theorem cls_le {r r' : Setoid D} (h : r ≤ r') : cls r' ≤ cls r :=
  Nat.card_le_card_of_surjective (Quotient.map' id fun _ _ hab => h hab) fun q =>
    Quotient.inductionOn q fun a => ⟨Quotient.mk _ a, rfl⟩

theorem cls_lt {r r' : Setoid D} (h : r ≤ r') {a b : D} (h1 : r' a b) (h2 : ¬ r a b) : cls r' + 1 ≤ cls r := by
  classical
  haveI := Fintype.ofFinite (Quotient r)
  haveI := Fintype.ofFinite (Quotient r')
  unfold cls
  rw [Nat.card_eq_fintype_card, Nat.card_eq_fintype_card]
  refine Fintype.card_lt_of_surjective_not_injective (Quotient.map' id fun _ _ hab => h hab)
    (fun q => Quotient.inductionOn q fun a => ⟨Quotient.mk _ a, rfl⟩) fun hi => h2 ?_
  have : (Quotient.mk r a) = Quotient.mk r b := hi (Quotient.sound h1)
  exact Quotient.exact this

/-- `r` with the classes of `a` and `b` merged. -/
def merged (r : Setoid D) (a b : D) : Setoid D where
  r x y := r x y ∨ ((r x a ∨ r x b) ∧ (r y a ∨ r y b))
  iseqv := by
    refine ⟨fun x => .inl (r.refl x), ?_, ?_⟩
    · rintro x y (h | ⟨h1, h2⟩)
      · exact .inl (r.symm h)
      · exact .inr ⟨h2, h1⟩
    · rintro x y z (h | ⟨h1, h2⟩) (h' | ⟨h1', h2'⟩)
      · exact .inl (r.trans h h')
      · exact .inr ⟨h1'.imp (r.trans h) (r.trans h), h2'⟩
      · exact .inr ⟨h1, h2.imp (r.trans (r.symm h')) (r.trans (r.symm h'))⟩
      · exact .inr ⟨h1, h2'⟩

theorem merged_pair (r : Setoid D) (a b : D) : merged r a b a b := .inr ⟨.inl (r.refl a), .inr (r.refl b)⟩
theorem le_merged (r : Setoid D) (a b : D) : r ≤ merged r a b := fun _ _ h => .inl h
theorem merged_eq {r : Setoid D} {a b : D} (h : r a b) : merged r a b ≤ r := by
  rintro x y (h1 | ⟨h1 | h1, h2 | h2⟩)
  · exact h1
  · exact r.trans h1 (r.symm h2)
  · exact r.trans h1 (r.trans h (r.symm h2))
  · exact r.trans h1 (r.trans (r.symm h) (r.symm h2))
  · exact r.trans h1 (r.symm h2)
theorem merged_le {r r' : Setoid D} {a b : D} (h : r ≤ r') (hab : r' a b) : merged r a b ≤ r' := by
  rintro x y (h1 | ⟨h1 | h1, h2 | h2⟩)
  · exact h h1
  · exact h (r.trans h1 (r.symm h2))
  · exact r'.trans (h h1) (r'.trans hab (r'.symm (h h2)))
  · exact r'.trans (h h1) (r'.trans (r'.symm hab) (r'.symm (h h2)))
  · exact h (r.trans h1 (r.symm h2))

theorem cls_merge {r r' : Setoid D} (h : r ≤ r') {a b : D} (hm : r' ≤ merged r a b) : cls r ≤ cls r' + 1 := by
  classical
  have hop : Nat.card (Option (Quotient r')) = cls r' + 1 := by
    haveI := Fintype.ofFinite (Quotient r')
    unfold cls
    rw [Nat.card_eq_fintype_card, Nat.card_eq_fintype_card, Fintype.card_option]
  rw [← hop]
  have hwd : ∀ x y, r x y → (if r x a then none else some (Quotient.mk r' x)) =
      (if r y a then none else some (Quotient.mk r' y)) := by
    intro x y hxy
    have : r x a ↔ r y a := ⟨fun hx => r.trans (r.symm hxy) hx, fun hy => r.trans hxy hy⟩
    by_cases hx : r x a
    · rw [if_pos hx, if_pos (this.1 hx)]
    · rw [if_neg hx, if_neg (fun hy => hx (this.2 hy)), Quotient.sound (h hxy)]
  refine Nat.card_le_card_of_injective (fun q => Quotient.liftOn q _ hwd) ?_
  intro p q
  refine Quotient.inductionOn₂ p q fun x y => ?_
  intro hxy
  change (if r x a then none else some (Quotient.mk r' x)) = (if r y a then none else some (Quotient.mk r' y)) at hxy
  apply Quotient.sound
  show r x y
  by_cases hx : r x a
  · by_cases hy : r y a
    · exact r.trans hx (r.symm hy)
    · rw [if_pos hx, if_neg hy] at hxy; cases hxy
  · by_cases hy : r y a
    · rw [if_neg hx, if_pos hy] at hxy; cases hxy
    · rw [if_neg hx, if_neg hy] at hxy
      rcases hm (Quotient.exact (Option.some.inj hxy)) with h1 | ⟨h1, h2⟩
      · exact h1
      · exact r.trans (h1.resolve_left hx) (r.symm (h2.resolve_left hy))

/-- A relation respected by every step of a permutation is respected by its cycles. -/
theorem cycle_le {f : Perm D} {r : Setoid D} (h : ∀ x, r x (f x)) : SameCycle.setoid f ≤ r := by
  rintro x y hxy
  obtain ⟨i, hi⟩ := SameCycle.exists_nat_pow_eq hxy
  rw [← hi]
  clear hi hxy
  induction i with
  | zero => exact r.refl _
  | succ i ih => rw [pow_succ', mul_apply]; exact r.trans ih (h _)

theorem same_step (f : Perm D) (x : D) : (SameCycle.setoid f) x (f x) := ⟨1, by simp⟩

/-- Number of cycles. -/
noncomputable def cyc (f : Perm D) : ℕ := cls (SameCycle.setoid f)

variable [DecidableEq D]

theorem swap_merged (f : Perm D) (a b : D) : SameCycle.setoid (f * swap a b) ≤ merged (SameCycle.setoid f) a b := by
  apply cycle_le
  intro x
  rw [mul_apply]
  by_cases hxa : x = a
  · subst hxa
    rw [swap_apply_left]
    exact .inr ⟨.inl (Setoid.refl' _ _), .inr (Setoid.symm' _ (same_step f b))⟩
  · by_cases hxb : x = b
    · subst hxb
      rw [swap_apply_right]
      exact .inr ⟨.inr (Setoid.refl' _ _), .inl (Setoid.symm' _ (same_step f a))⟩
    · rw [swap_apply_of_ne_of_ne hxa hxb]
      exact .inl (same_step f x)

theorem swap_merged' (f : Perm D) (a b : D) : SameCycle.setoid f ≤ merged (SameCycle.setoid (f * swap a b)) a b := by
  have := swap_merged (f * swap a b) a b
  rwa [mul_assoc, swap_mul_self, mul_one] at this

/-- Multiplying by the exchange of elements of different cycles joins the cycles. -/
theorem swap_joins {f : Perm D} {a b : D} (h : ¬ SameCycle f a b) : SameCycle (f * swap a b) a b := by
  have key : ∀ i, (f ^ (i + 1)) b = b ∨ SameCycle (f * swap a b) a ((f ^ (i + 1)) b) ∨ SameCycle (f * swap a b) a b := by
    intro i
    induction i with
    | zero =>
      right; left
      have := same_step (f * swap a b) a
      rw [mul_apply, swap_apply_left] at this
      rw [zero_add, pow_one]
      exact this
    | succ i ih =>
      rcases ih with ih | ih | ih
      · right; left
        have := same_step (f * swap a b) a
        rw [mul_apply, swap_apply_left] at this
        rw [pow_succ', mul_apply, ih]
        exact this
      · by_cases hb : (f ^ (i + 1)) b = b
        · right; right; rwa [hb] at ih
        · right; left
          have ha : (f ^ (i + 1)) b ≠ a := fun ha => h (SameCycle.symm ⟨((i + 1 : ℕ) : ℤ), by rw [zpow_natCast]; exact ha⟩)
          have := same_step (f * swap a b) ((f ^ (i + 1)) b)
          rw [mul_apply, swap_apply_of_ne_of_ne ha hb] at this
          rw [pow_succ', mul_apply]
          exact SameCycle.trans ih this
      · exact .inr (.inr ih)
  obtain ⟨n, hn, hp⟩ : ∃ n, 0 < n ∧ (f ^ n) b = b := ⟨orderOf f, orderOf_pos f, by rw [pow_orderOf_eq_one]; rfl⟩
  obtain ⟨m, rfl⟩ : ∃ m, n = m + 1 := ⟨n - 1, by omega⟩
  have hlast : ∀ i, (∀ j, j ≤ i → (f ^ (j + 1)) b ≠ b) → SameCycle (f * swap a b) a ((f ^ (i + 1)) b) ∨ SameCycle (f * swap a b) a b := by
    intro i hi
    exact (key i).resolve_left (hi i le_rfl)
  classical
  have hex : ∃ j, (f ^ (j + 1)) b = b := ⟨m, hp⟩
  have hmin := Nat.find_spec hex
  rcases Nat.eq_zero_or_pos (Nat.find hex) with h0 | hpos
  · rw [h0] at hmin
    have := same_step (f * swap a b) a
    rw [mul_apply, swap_apply_left] at this
    simp only [zero_add, pow_one] at hmin
    rwa [hmin] at this
  · obtain ⟨k, hk⟩ : ∃ k, Nat.find hex = k + 1 := ⟨Nat.find hex - 1, by omega⟩
    have hlt : ∀ j, j ≤ k → (f ^ (j + 1)) b ≠ b := fun j hj => Nat.find_min hex (by omega)
    rcases hlast k hlt with h1 | h1
    · have hb := hlt k le_rfl
      have ha : (f ^ (k + 1)) b ≠ a := fun ha => h (SameCycle.symm ⟨((k + 1 : ℕ) : ℤ), by rw [zpow_natCast]; exact ha⟩)
      have := same_step (f * swap a b) ((f ^ (k + 1)) b)
      rw [mul_apply, swap_apply_of_ne_of_ne ha hb] at this
      rw [hk, pow_succ', mul_apply] at hmin
      rw [hmin] at this
      exact SameCycle.trans h1 this
    · exact h1

/-- Multiplying by the exchange of elements of one cycle splits it. -/
theorem swap_splits {f : Perm D} {a b : D} (hab : a ≠ b) (h : SameCycle f a b) : ¬ SameCycle (f * swap a b) a b := by
  classical
  obtain ⟨i0, hi0⟩ := SameCycle.exists_nat_pow_eq h
  have hex : ∃ i, (f ^ i) a = b := ⟨i0, hi0⟩
  have hk := Nat.find_spec hex
  have hmin : ∀ j, j < Nat.find hex → (f ^ j) a ≠ b := fun j hj => Nat.find_min hex hj
  have hpos : 0 < Nat.find hex := by
    rcases Nat.eq_zero_or_pos (Nat.find hex) with h0 | h0
    · rw [h0] at hk; exact absurd (by simpa using hk) hab
    · exact h0
  generalize Nat.find hex = k at hk hmin hpos
  -- the powers 1..k of f on a do not return to a
  have hna : ∀ j, 1 ≤ j → j ≤ k → (f ^ j) a ≠ a := by
    intro j h1 h2 hj
    have : (f ^ (k - j)) a = b := by
      have e : (f ^ k) a = (f ^ (k - j)) ((f ^ j) a) := by
        rw [← mul_apply, ← pow_add]; congr 2; omega
      rw [hj] at e; rw [← e, hk]
    exact hmin (k - j) (by omega) this
  -- the set of these powers is closed under the new permutation
  have hcl : ∀ x, (∃ j, 1 ≤ j ∧ j ≤ k ∧ (f ^ j) a = x) → ∃ j, 1 ≤ j ∧ j ≤ k ∧ (f ^ j) a = (f * swap a b) x := by
    rintro x ⟨j, h1, h2, rfl⟩
    rw [mul_apply]
    by_cases hjk : j = k
    · subst hjk
      rw [hk, swap_apply_right]
      exact ⟨1, le_rfl, hpos, by simp⟩
    · rw [swap_apply_of_ne_of_ne (hna j h1 h2) (hmin j (by omega))]
      exact ⟨j + 1, by omega, by omega, by rw [pow_succ', mul_apply]⟩
  intro hs
  obtain ⟨i, hi⟩ := SameCycle.exists_nat_pow_eq hs.symm
  have hall : ∀ i, ∃ j, 1 ≤ j ∧ j ≤ k ∧ (f ^ j) a = ((f * swap a b) ^ i) b := by
    intro i
    induction i with
    | zero => exact ⟨k, hpos, le_rfl, by simpa using hk⟩
    | succ i ih => rw [pow_succ', mul_apply]; exact hcl _ ih
  obtain ⟨j, h1, h2, h3⟩ := hall i
  rw [hi] at h3
  exact hna j h1 h2 h3

/-- Any exchange loses at most one cycle. -/
theorem cyc_swap_ge (f : Perm D) {a b : D} (hab : a ≠ b) : cyc f ≤ cyc (f * swap a b) + 1 := by
  by_cases h : SameCycle f a b
  · have h' := swap_splits hab h
    have := cls_lt (r := SameCycle.setoid (f * swap a b)) (r' := SameCycle.setoid f)
      ((swap_merged f a b).trans (merged_eq h)) h h'
    unfold cyc; omega
  · exact cls_merge ((swap_merged' f a b).trans (merged_eq (swap_joins h))) (swap_merged f a b)

/-- An exchange inside a cycle gains one. -/
theorem cyc_swap_split {f : Perm D} {a b : D} (hab : a ≠ b) (h : SameCycle f a b) : cyc f + 1 ≤ cyc (f * swap a b) :=
  cls_lt ((swap_merged f a b).trans (merged_eq h)) h (swap_splits hab h)

/-- Components of a map. -/
def joined (σ α : Perm D) : Setoid D := SameCycle.setoid σ ⊔ SameCycle.setoid α

/-- The map obeys Euler's formula for the sphere: vertices (cycles of `σ`), edges (all darts less the cycles of `α`),
faces (cycles of `σ * α`) and components satisfy V - E + F = 2C. -/
def Flat (σ α : Perm D) : Prop := cyc σ + cyc α + cyc (σ * α) = Nat.card D + 2 * cls (joined σ α)

/-- Cutting an edge. -/
theorem cut_le (σ α : Perm D) {a b : D} (hab : a ≠ b) (h : SameCycle α a b) :
    cyc α + cyc (σ * α) + 2 * cls (joined σ (α * swap a b)) ≤
      cyc (α * swap a b) + cyc (σ * (α * swap a b)) + 2 * cls (joined σ α) := by
  have hα := cyc_swap_split hab h
  have hle : joined σ (α * swap a b) ≤ joined σ α :=
    sup_le_sup_left ((swap_merged α a b).trans (merged_eq h)) _
  have hge : joined σ α ≤ merged (joined σ (α * swap a b)) a b := by
    refine sup_le (le_trans le_sup_left (le_merged _ _ _)) ?_
    exact (swap_merged' α a b).trans (merged_le (le_trans le_sup_right (le_merged _ _ _)) (merged_pair _ _ _))
  have hphi : σ * (α * swap a b) = σ * α * swap a b := by rw [mul_assoc]
  by_cases hs : SameCycle (σ * α) a b
  · have h1 := cyc_swap_split hab hs
    have h2 := cls_merge hle hge
    rw [hphi]; omega
  · have h1 := cyc_swap_ge (σ * α) hab
    have hj := swap_joins hs
    have hφ : SameCycle.setoid (σ * α * swap a b) ≤ joined σ (α * swap a b) := by
      apply cycle_le
      intro x
      rw [← hphi, mul_apply]
      refine Setoid.trans' (joined σ (α * swap a b)) (y := (α * swap a b) x) ?_ ?_
      · exact (le_sup_right : SameCycle.setoid (α * swap a b) ≤ _) (same_step _ x)
      · exact (le_sup_left : SameCycle.setoid σ ≤ _) (same_step _ _)
    have h2 : cls (joined σ (α * swap a b)) ≤ cls (joined σ α) := cls_le (hge.trans (merged_eq (hφ hj)))
    rw [hphi]; omega

end Verif.Map
