import Verif.Map.Perm
import Mathlib.Data.Set.Card
import Mathlib.Tactic.Ring

/-
Restricting the edges of a map to a closed set of darts; Euler's inequality.
-/
namespace Verif.Map
open Equiv Equiv.Perm

variable {D : Type*} [Finite D]

section
variable {α : Perm D} (hα : ∀ x, α (α x) = x)
include hα

/-- `S` contains both darts of its edges. -/
def Closed (α : Perm D) (S : Set D) : Prop := ∀ x, x ∈ S → α x ∈ S

open Classical in
/-- `α` on `S`, the identity elsewhere. -/
noncomputable def restr (S : Set D) (hS : Closed α S) : Perm D where
  toFun x := if x ∈ S then α x else x
  invFun x := if x ∈ S then α x else x
  left_inv x := by
    by_cases h : x ∈ S
    · simp only [h, if_true, hS x h, hα]
    · simp only [h, if_false]
  right_inv x := by
    by_cases h : x ∈ S
    · simp only [h, if_true, hS x h, hα]
    · simp only [h, if_false]

omit [Finite D] in
theorem restr_mem {S : Set D} (hS : Closed α S) {x : D} (h : x ∈ S) : restr hα S hS x = α x := if_pos h
omit [Finite D] in
theorem restr_not {S : Set D} (hS : Closed α S) {x : D} (h : x ∉ S) : restr hα S hS x = x := if_neg h

omit [Finite D] in
theorem restr_univ (h : Closed α Set.univ) : restr hα Set.univ h = α := by
  ext x; exact restr_mem hα h trivial

omit [Finite D] in
theorem restr_empty (h : Closed α ∅) : restr hα ∅ h = 1 := by
  ext x; exact restr_not hα h (Set.notMem_empty x)

omit [Finite D] hα in
theorem Closed.empty : Closed α ∅ := fun _ h => h
omit [Finite D] hα in
theorem Closed.univ : Closed α Set.univ := fun _ _ => trivial

/-- Without the edge of `a`. -/
theorem Closed.cut {S : Set D} (hS : Closed α S) (a : D) : Closed α (S \ {a, α a}) := by
  rintro x ⟨h1, h2⟩
  refine ⟨hS x h1, fun h => h2 ?_⟩
  rcases h with h | h
  · right; rw [Set.mem_singleton_iff, ← h, hα]
  · left; exact α.injective h

variable [DecidableEq D]

theorem restr_cut {S : Set D} (hS : Closed α S) {a : D} (ha : a ∈ S) :
    restr hα S hS * swap a (α a) = restr hα _ (Closed.cut hα hS a) := by
  ext x
  rw [mul_apply]
  by_cases h1 : x = a
  · subst h1
    rw [swap_apply_left, restr_mem hα hS (hS _ ha), hα, restr_not]
    exact fun h => h.2 (by simp)
  · by_cases h2 : x = α a
    · subst h2
      rw [swap_apply_right, restr_mem hα hS ha, restr_not]
      exact fun h => h.2 (by simp)
    · rw [swap_apply_of_ne_of_ne h1 h2]
      by_cases hx : x ∈ S
      · rw [restr_mem hα hS hx, restr_mem]
        exact ⟨hx, by rintro (h | h); exact h1 h; exact h2 h⟩
      · rw [restr_not hα hS hx, restr_not]
        exact fun h => hx h.1

omit [Finite D] [DecidableEq D] in
theorem restr_same {S : Set D} (hS : Closed α S) {a : D} (ha : a ∈ S) : SameCycle (restr hα S hS) a (α a) :=
  ⟨1, by rw [zpow_one, restr_mem hα hS ha]⟩

/-- Cutting edges does not increase the genus. -/
theorem restr_le (σ : Perm D) {S T : Set D} (hS : Closed α S) (hT : Closed α T) (hTS : T ⊆ S) :
    cyc (restr hα S hS) + cyc (σ * restr hα S hS) + 2 * cls (joined σ (restr hα T hT)) ≤
      cyc (restr hα T hT) + cyc (σ * restr hα T hT) + 2 * cls (joined σ (restr hα S hS)) := by
  induction hn : (S \ T).ncard using Nat.strong_induction_on generalizing S with
  | _ n ih =>
    by_cases h0 : S ⊆ T
    · have : S = T := Set.Subset.antisymm h0 hTS
      subst this
      exact le_rfl
    · obtain ⟨a, haS, haT⟩ := Set.not_subset.1 h0
      have haT' : α a ∉ T := fun h => haT (by have := hT _ h; rwa [hα] at this)
      have hlt : ((S \ {a, α a}) \ T).ncard < n := by
        rw [← hn]
        apply Set.ncard_lt_ncard _ (Set.toFinite _)
        refine ⟨fun x hx => ⟨hx.1.1, hx.2⟩, fun h => ?_⟩
        have := h ⟨haS, haT⟩
        exact this.1.2 (by simp)
      have hsub : T ⊆ S \ {a, α a} := by
        intro x hx
        refine ⟨hTS hx, ?_⟩
        rintro (h | h)
        · exact haT (h ▸ hx)
        · exact haT' (h ▸ hx)
      have h1 := ih _ hlt (Closed.cut hα hS a) hsub rfl
      by_cases hfix : α a = a
      · have he : restr hα _ (Closed.cut hα hS a) = restr hα S hS := by
          rw [← restr_cut hα hS haS, hfix, swap_self]; rfl
        rw [he] at h1
        exact h1
      · have h2 := cut_le σ (restr hα S hS) (Ne.symm hfix) (restr_same hα hS haS)
        rw [restr_cut hα hS haS] at h2
        omega

omit hα [DecidableEq D] in
theorem cyc_one : cyc (1 : Perm D) = Nat.card D := by
  unfold cyc cls
  refine (Nat.card_eq_of_bijective (Quotient.mk (SameCycle.setoid (1 : Perm D))) ⟨?_, ?_⟩).symm
  · intro x y h
    obtain ⟨i, hi⟩ := (Quotient.exact h : (SameCycle.setoid (1 : Perm D)) x y)
    simpa using hi
  · exact fun q => Quotient.inductionOn q fun a => ⟨a, rfl⟩

omit hα [DecidableEq D] in
theorem joined_one (σ : Perm D) : cls (joined σ 1) = cyc σ := by
  refine le_antisymm (cls_le le_sup_left) (cls_le (sup_le le_rfl ?_))
  apply cycle_le
  exact fun x => Setoid.refl' _ _

/-- Euler's inequality. -/
theorem euler_le (σ : Perm D) : cyc σ + cyc α + cyc (σ * α) ≤ Nat.card D + 2 * cls (joined σ α) := by
  have h := restr_le hα σ (S := Set.univ) Closed.univ Closed.empty (Set.empty_subset _)
  rw [restr_univ, restr_empty, joined_one, mul_one, cyc_one] at h
  omega

/-- Some edges of a plane map form a plane map. -/
theorem Flat.restr {σ : Perm D} (h : Flat σ α) {S : Set D} (hS : Closed α S) : Flat σ (Map.restr hα S hS) := by
  have h1 := restr_le hα σ (S := Set.univ) Closed.univ hS (Set.subset_univ _)
  have h2 := restr_le hα σ hS Closed.empty (Set.empty_subset _)
  rw [restr_univ] at h1
  rw [restr_empty, joined_one, mul_one, cyc_one] at h2
  unfold Flat at *
  omega

omit hα in
theorem cyc_swap_eq {f : Perm D} {a b : D} (hab : a ≠ b) (h : SameCycle f a b) : cyc (f * swap a b) = cyc f + 1 := by
  have h1 := cyc_swap_split hab h
  have h2 := cyc_swap_ge (f * swap a b) hab
  rw [mul_assoc, swap_mul_self, mul_one] at h2
  omega

/-- Cycles of a restriction. -/
theorem cyc_restr (hne : ∀ x, α x ≠ x) {S : Set D} (hS : Closed α S) :
    2 * cyc (restr hα S hS) + S.ncard = 2 * Nat.card D := by
  induction hn : S.ncard using Nat.strong_induction_on generalizing S with
  | _ n ih =>
    by_cases h0 : S = ∅
    · subst h0
      rw [restr_empty, cyc_one, ← hn, Set.ncard_empty, add_zero]
    · obtain ⟨a, ha⟩ := Set.nonempty_iff_ne_empty.2 h0
      have hpair : ({a, α a} : Set D).ncard = 2 := Set.ncard_pair (Ne.symm (hne a))
      have hsub : ({a, α a} : Set D) ⊆ S := by
        rintro x (rfl | h)
        · exact ha
        · rw [h]; exact hS _ ha
      have hc : (S \ {a, α a}).ncard = n - 2 := by
        rw [Set.ncard_sdiff hsub (Set.toFinite _), hpair, hn]
      have hle := Set.ncard_le_ncard hsub (Set.toFinite _)
      rw [hpair, hn] at hle
      have h1 := ih (n - 2) (by omega) (Closed.cut hα hS a) hc
      have h2 := cyc_swap_eq (Ne.symm (hne a)) (restr_same hα hS ha)
      rw [restr_cut hα hS ha] at h2
      omega

theorem cyc_involution (hne : ∀ x, α x ≠ x) : 2 * cyc α = Nat.card D := by
  have h := cyc_restr hα hne (S := Set.univ) Closed.univ
  rw [restr_univ, Set.ncard_univ] at h
  omega

end

end Verif.Map
