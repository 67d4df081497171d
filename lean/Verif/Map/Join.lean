import Verif.Map.Restrict

/-
Steps that keep a map plane: joining two vertices of different components, joining two vertices at corners of one face,
and reflecting some of the components. And how cycles written as lists change in these steps.
-/
namespace Verif.Map
open Equiv Equiv.Perm

variable {D : Type*} [Finite D] [DecidableEq D]

omit [DecidableEq D] [Finite D] in
theorem p_pinv (f : Perm D) (x : D) : f (f⁻¹ x) = x := f.apply_symm_apply x
omit [DecidableEq D] [Finite D] in
theorem pinv_p (f : Perm D) (x : D) : f⁻¹ (f x) = x := f.symm_apply_apply x

theorem swap_left (f : Perm D) (a b : D) : swap a b * f = f * swap (f⁻¹ a) (f⁻¹ b) := by
  ext x
  simp only [mul_apply]
  by_cases h1 : f x = a
  · have : f⁻¹ a = x := by rw [← h1]; simp
    rw [h1, this, swap_apply_left, swap_apply_left]; simp
  · by_cases h2 : f x = b
    · have : f⁻¹ b = x := by rw [← h2]; simp
      rw [h2, this, swap_apply_right, swap_apply_right]; simp
    · rw [swap_apply_of_ne_of_ne h1 h2, swap_apply_of_ne_of_ne]
      · rintro rfl; simp at h1
      · rintro rfl; simp at h2

omit [DecidableEq D] [Finite D] in
theorem same_inv_iff (f : Perm D) (a b : D) : SameCycle f (f⁻¹ a) (f⁻¹ b) ↔ SameCycle f a b := by
  rw [← sameCycle_apply_left, ← sameCycle_apply_right, p_pinv, p_pinv]

theorem left_merged' (f : Perm D) (a b : D) : SameCycle.setoid f ≤ merged (SameCycle.setoid (swap a b * f)) a b := by
  have h := swap_merged' f (f⁻¹ a) (f⁻¹ b)
  rw [← swap_left] at h
  refine h.trans (merged_le (le_merged _ _ _) ?_)
  refine .inr ⟨.inr ?_, .inl ?_⟩
  · have := same_step (swap a b * f) (f⁻¹ a)
    simpa using this
  · have := same_step (swap a b * f) (f⁻¹ b)
    simpa using this

theorem left_joins {f : Perm D} {a b : D} (h : ¬ SameCycle f a b) : SameCycle (swap a b * f) a b := by
  have h1 : SameCycle (swap a b * f) (f⁻¹ a) (f⁻¹ b) := by
    rw [swap_left]
    exact swap_joins (fun hh => h ((same_inv_iff f a b).1 hh))
  have ha := same_step (swap a b * f) (f⁻¹ a)
  have hb := same_step (swap a b * f) (f⁻¹ b)
  simp only [mul_apply, p_pinv, swap_apply_left, swap_apply_right] at ha hb
  exact (SameCycle.trans (SameCycle.symm hb) (SameCycle.trans h1.symm ha)).symm.symm

theorem cyc_left_join {f : Perm D} {a b : D} (hab : a ≠ b) (h : ¬ SameCycle f a b) : cyc (swap a b * f) + 1 = cyc f := by
  have hne : f⁻¹ a ≠ f⁻¹ b := fun hh => hab (f⁻¹.injective hh)
  have h' : ¬ SameCycle f (f⁻¹ a) (f⁻¹ b) := fun hh => h ((same_inv_iff f a b).1 hh)
  have h1 := cyc_swap_eq hne (swap_joins h')
  rw [mul_assoc, swap_mul_self, mul_one, ← swap_left] at h1
  exact h1.symm

theorem cyc_left_split {f : Perm D} {a b : D} (hab : a ≠ b) (h : SameCycle f a b) : cyc (swap a b * f) = cyc f + 1 := by
  have hne : f⁻¹ a ≠ f⁻¹ b := fun hh => hab (f⁻¹.injective hh)
  rw [swap_left]
  exact cyc_swap_eq hne ((same_inv_iff f a b).2 h)

/-- Joining two vertices keeps the map plane if they are in different components or the corners are in one face. -/
theorem Flat.join {σ α : Perm D} (hα : ∀ x, α (α x) = x) (hf : Flat σ α) {p q : D} (hs : ¬ SameCycle σ p q)
    (hc : ¬ (joined σ α) p q ∨ SameCycle (σ * α) p q) : Flat (swap p q * σ) α := by
  have hpq : p ≠ q := fun hh => hs (hh ▸ SameCycle.refl _ _)
  have hE := euler_le hα (swap p q * σ)
  have h1 := cyc_left_join hpq hs
  have hj : (joined (swap p q * σ) α) p q := (le_sup_left : SameCycle.setoid (swap p q * σ) ≤ _) (left_joins hs)
  have hle : joined σ α ≤ joined (swap p q * σ) α := by
    refine sup_le ?_ le_sup_right
    exact (left_merged' σ p q).trans (merged_le le_sup_left hj)
  rw [mul_assoc] at hE
  unfold Flat at *
  rw [mul_assoc]
  by_cases hcyc : SameCycle (σ * α) p q
  · have h2 := cyc_left_split hpq hcyc
    have h3 := cls_le hle
    omega
  · have hnj := hc.resolve_right hcyc
    have h2 := cyc_left_join hpq hcyc
    have h3 := cls_lt hle hj hnj
    omega

section
open Classical
variable {σ α : Perm D}

omit [DecidableEq D] [Finite D] in
theorem mem_inv {f : Perm D} {S : Set D} (hS : ∀ x, f x ∈ S ↔ x ∈ S) (x : D) : f⁻¹ x ∈ S ↔ x ∈ S := by
  rw [← hS (f⁻¹ x)]; simp

/-- `f` off `S` and its inverse on `S`. -/
noncomputable def mirror (f : Perm D) (S : Set D) (hS : ∀ x, f x ∈ S ↔ x ∈ S) : Perm D where
  toFun x := if x ∈ S then f⁻¹ x else f x
  invFun x := if x ∈ S then f x else f⁻¹ x
  left_inv x := by
    by_cases h : x ∈ S
    · simp only [h, if_true, (mem_inv hS x).2 h, p_pinv]
    · simp only [h, if_false, (hS x).not.2 h, pinv_p]
  right_inv x := by
    by_cases h : x ∈ S
    · simp only [h, if_true, (hS x).2 h, pinv_p]
    · simp only [h, if_false, (mem_inv hS x).not.2 h, p_pinv]

omit [DecidableEq D] [Finite D] in
theorem mirror_in {f : Perm D} {S : Set D} (hS : ∀ x, f x ∈ S ↔ x ∈ S) {x : D} (h : x ∈ S) : mirror f S hS x = f⁻¹ x := by
  show (if x ∈ S then f⁻¹ x else f x) = _
  rw [if_pos h]
omit [DecidableEq D] [Finite D] in
theorem mirror_out {f : Perm D} {S : Set D} (hS : ∀ x, f x ∈ S ↔ x ∈ S) {x : D} (h : x ∉ S) : mirror f S hS x = f x := by
  show (if x ∈ S then f⁻¹ x else f x) = _
  rw [if_neg h]

omit [DecidableEq D] in
theorem mirror_le (f : Perm D) (S : Set D) (hS : ∀ x, f x ∈ S ↔ x ∈ S) :
    SameCycle.setoid (mirror f S hS) ≤ SameCycle.setoid f := by
  apply cycle_le
  intro x
  by_cases h : x ∈ S
  · rw [mirror_in hS h]; exact ⟨-1, by simp⟩
  · rw [mirror_out hS h]; exact same_step f x

omit [DecidableEq D] in
theorem mirror_same (f : Perm D) (S : Set D) (hS : ∀ x, f x ∈ S ↔ x ∈ S) :
    SameCycle.setoid (mirror f S hS) = SameCycle.setoid f := by
  refine le_antisymm (mirror_le f S hS) ?_
  apply cycle_le
  intro x
  by_cases h : x ∈ S
  · have := same_step (mirror f S hS) (f x)
    rw [mirror_in hS ((hS x).2 h), pinv_p] at this
    exact SameCycle.symm this
  · have := same_step (mirror f S hS) x
    rwa [mirror_out hS h] at this

omit [DecidableEq D] [Finite D] in
/-- Conjugation keeps the number of cycles. -/
theorem cyc_conj (f g : Perm D) : cyc (g * f * g⁻¹) = cyc f := by
  unfold cyc cls
  refine (Nat.card_congr (Quotient.congr g ?_)).symm
  intro a b
  show SameCycle f a b ↔ SameCycle (g * f * g⁻¹) (g a) (g b)
  rw [sameCycle_conj]; simp

/-- Reflecting a closed part of a plane map keeps it plane. -/
theorem Flat.mirrored (hα : ∀ x, α (α x) = x) (hf : Flat σ α) {S : Set D} (h1 : ∀ x, σ x ∈ S ↔ x ∈ S)
    (h2 : ∀ x, α x ∈ S ↔ x ∈ S) : Flat (mirror σ S h1) α := by
  have hcl : Closed α S := fun x hx => (h2 x).2 hx
  have h3 : ∀ x, (σ * α) x ∈ S ↔ x ∈ S := fun x => by rw [mul_apply, h1, h2]
  have hai : ∀ x, α⁻¹ x = α x := fun x => by rw [inv_eq_iff_eq, hα]
  have key : mirror σ S h1 * α = Map.restr hα S hcl * mirror (σ * α) S h3 * (Map.restr hα S hcl)⁻¹ := by
    rw [eq_mul_inv_iff_mul_eq]
    ext x
    simp only [mul_apply]
    by_cases h : x ∈ S
    · have e1 : Map.restr hα S hcl x = α x := if_pos h
      rw [e1, hα, mirror_in h1 h, mirror_in h3 h]
      have h4 : (σ * α)⁻¹ x = α (σ⁻¹ x) := by rw [mul_inv_rev, mul_apply, hai]
      have hm : σ⁻¹ x ∈ S := (mem_inv h1 x).2 h
      rw [h4]
      have e2 : Map.restr hα S hcl (α (σ⁻¹ x)) = α (α (σ⁻¹ x)) := if_pos ((h2 _).2 hm)
      rw [e2, hα]
    · have e1 : Map.restr hα S hcl x = x := if_neg h
      rw [e1, mirror_out h1 ((h2 x).not.2 h), mirror_out h3 h]
      have e2 : Map.restr hα S hcl ((σ * α) x) = (σ * α) x := if_neg ((h3 x).not.2 h)
      rw [e2, mul_apply]
  have c1 : cyc (mirror σ S h1) = cyc σ := by unfold cyc; rw [mirror_same]
  have c2 : cyc (mirror σ S h1 * α) = cyc (σ * α) := by
    rw [key, cyc_conj]; unfold cyc; rw [mirror_same]
  have c3 : joined (mirror σ S h1) α = joined σ α := by unfold joined; rw [mirror_same]
  unfold Flat at *
  rw [c1, c2, c3]; exact hf

end

/-! Cycles as lists. -/

/-- The list is run through cyclically. -/
def Orbit (f : Perm D) (l : List D) : Prop := l.map f = l.rotate 1

omit [Finite D] [DecidableEq D]

theorem orbit_cons {f : Perm D} {a : D} {l : List D} : Orbit f (a :: l) ↔ (a :: l).map f = l ++ [a] := by
  unfold Orbit; simp

theorem orbit_nil (f : Perm D) : Orbit f [] := by simp [Orbit]

theorem Orbit.rotate {f : Perm D} {l : List D} (h : Orbit f l) (n : Nat) : Orbit f (l.rotate n) := by
  unfold Orbit at *
  rw [List.map_rotate, h, List.rotate_rotate, List.rotate_rotate, Nat.add_comm]

theorem Orbit.comm {f : Perm D} {l l' : List D} (h : Orbit f (l ++ l')) : Orbit f (l' ++ l) := by
  have := h.rotate l.length
  rwa [List.rotate_append_length_eq] at this

theorem Orbit.next {f : Perm D} {A B : List D} {a b : D} (h : Orbit f (A ++ a :: b :: B)) : f a = b := by
  have h1 : Orbit f ((a :: b :: B) ++ A) := h.comm
  rw [List.cons_append, orbit_cons] at h1
  simp only [List.cons_append, List.map_cons, List.cons.injEq] at h1
  exact h1.1

theorem Orbit.last {f : Perm D} {A : List D} {a b : D} (h : Orbit f (b :: (A ++ [a]))) : f a = b := by
  have h1 : Orbit f ((b :: A) ++ [a]) := h
  have h2 := h1.comm
  simp only [List.cons_append, List.nil_append] at h2
  rw [orbit_cons] at h2
  simp only [List.map_cons, List.cons_append, List.cons.injEq] at h2
  exact h2.1

theorem Orbit.mem {f : Perm D} {l : List D} (h : Orbit f l) {x : D} (hx : x ∈ l) : f x ∈ l := by
  have : f x ∈ l.map f := List.mem_map_of_mem hx
  rw [h] at this
  simpa using this

theorem Orbit.mem_iff {f : Perm D} {l : List D} (h : Orbit f l) {x : D} : f x ∈ l ↔ x ∈ l := by
  refine ⟨fun hx => ?_, h.mem⟩
  have : f x ∈ l.map f := by rw [h]; simpa using hx
  obtain ⟨y, hy, he⟩ := List.mem_map.1 this
  rwa [← f.injective he]

theorem Orbit.same {f : Perm D} {l : List D} (h : Orbit f l) {x y : D} (hx : x ∈ l) (hy : y ∈ l) : SameCycle f x y := by
  obtain ⟨A, B, rfl⟩ := List.append_of_mem hx
  have h1 := h.comm
  have hy : y ∈ (x :: B) ++ A := by simp at hy ⊢; tauto
  rw [List.cons_append] at h1 hy
  generalize B ++ A = l at h1 hy
  suffices ∀ (C : List D) (z : D) (l : List D), (∀ A' B' a b, z :: l = A' ++ a :: b :: B' → f a = b) → SameCycle f x z →
      y ∈ z :: l → SameCycle f x y by
    refine this [] x l ?_ (SameCycle.refl _ _) hy
    intro A' B' a b he
    rw [he] at h1
    exact h1.next
  intro _ z l
  induction l generalizing z with
  | nil => intro _ h2 h3; simp at h3; rwa [h3]
  | cons w l ih =>
    intro h2 h3 h4
    rcases List.mem_cons.1 h4 with rfl | h4
    · exact h3
    · have hw : f z = w := h2 [] l z w rfl
      refine ih w (fun A' B' a b he => h2 (z :: A') B' a b (by rw [he]; rfl)) ?_ h4
      rw [← hw]; exact (sameCycle_apply_right).2 h3

theorem Orbit.same_mem {f : Perm D} {l : List D} (h : Orbit f l) {x y : D} (hs : SameCycle f x y) : x ∈ l ↔ y ∈ l := by
  obtain ⟨i, rfl⟩ := hs
  have hi : ∀ z, f⁻¹ z ∈ l ↔ z ∈ l := fun z => by rw [← h.mem_iff]; simp
  have hn : ∀ (n : Nat) (z : D), (f ^ n) z ∈ l ↔ z ∈ l := by
    intro n; induction n with
    | zero => simp
    | succ n ih => intro z; rw [pow_succ', mul_apply, h.mem_iff, ih]
  have hm : ∀ (n : Nat) (z : D), (f⁻¹ ^ n) z ∈ l ↔ z ∈ l := by
    intro n; induction n with
    | zero => simp
    | succ n ih => intro z; rw [pow_succ', mul_apply, hi, ih]
  obtain ⟨n, rfl | rfl⟩ := Int.eq_nat_or_neg i
  · rw [zpow_natCast, hn]
  · rw [zpow_neg, zpow_natCast, ← inv_pow, hm]

variable [DecidableEq D]

theorem map_swap_of {p q : D} {l : List D} (hp : p ∉ l) (hq : q ∉ l) : l.map (swap p q) = l := by
  induction l with
  | nil => rfl
  | cons a l ih =>
    simp only [List.mem_cons, not_or] at hp hq
    rw [List.map_cons, ih hp.2 hq.2, swap_apply_of_ne_of_ne (Ne.symm hp.1) (Ne.symm hq.1)]

theorem map_left (p q : D) (f : Perm D) (l : List D) : l.map (swap p q * f) = (l.map f).map (swap p q) := by
  rw [List.map_map]; rfl

/-- Other cycles stay. -/
theorem Orbit.off {f : Perm D} {l : List D} (h : Orbit f l) {p q : D} (hp : p ∉ l) (hq : q ∉ l) :
    Orbit (swap p q * f) l := by
  unfold Orbit at *
  rw [map_left, h, map_swap_of] <;> simpa

/-- Two cycles become one. -/
theorem Orbit.glue {f : Perm D} {p q : D} {z r : List D} (h1 : Orbit f (p :: z)) (h2 : Orbit f (q :: r))
    (hn : (p :: z ++ q :: r).Nodup) : Orbit (swap p q * f) (p :: z ++ q :: r) := by
  rw [List.cons_append, orbit_cons]
  rw [orbit_cons] at h1 h2
  rw [← List.cons_append, map_left, List.map_append, h1, h2]
  simp only [List.cons_append, List.nodup_cons, List.mem_append, List.mem_cons, not_or, List.nodup_append] at hn
  obtain ⟨⟨a1, a2, a3⟩, b1, ⟨b2, b3⟩, b4⟩ := hn
  have hz : q ∉ z := fun h => b4 q h q (.inl rfl) rfl
  simp only [List.map_append, map_swap_of a1 hz, map_swap_of a3 b2, List.map_cons, List.map_nil, swap_apply_left,
    swap_apply_right, List.append_assoc, List.cons_append, List.nil_append]

/-- One cycle becomes two. -/
theorem Orbit.split {f : Perm D} {p q : D} {z r : List D} (h : Orbit f (p :: z ++ q :: r))
    (hn : (p :: z ++ q :: r).Nodup) : Orbit (swap p q * f) (p :: z) ∧ Orbit (swap p q * f) (q :: r) := by
  rw [List.cons_append, orbit_cons] at h
  simp only [List.cons_append, List.nodup_cons, List.mem_append, List.mem_cons, not_or, List.nodup_append] at hn
  obtain ⟨⟨a1, a2, a3⟩, b1, ⟨b2, b3⟩, b4⟩ := hn
  have hz : q ∉ z := fun h => b4 q h q (.inl rfl) rfl
  have h1 : (p :: z).map f ++ (q :: r).map f = (z ++ [q]) ++ (r ++ [p]) := by
    rw [← List.map_append, List.cons_append, h]; simp
  obtain ⟨e1, e2⟩ := List.append_inj h1 (by simp)
  constructor
  · rw [orbit_cons, map_left, e1]
    simp [map_swap_of a1 hz]
  · rw [orbit_cons, map_left, e2]
    simp [map_swap_of a3 b2]

end Verif.Map
