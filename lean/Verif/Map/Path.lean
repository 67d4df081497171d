import Verif.Map.Perm
import Mathlib.GroupTheory.OrderOfElement

/-
Paths through vertices of degree two in a map.
-/
namespace Verif.Map
open Equiv Equiv.Perm

/-- `T` marks darts at vertices of degree two. -/
structure Thread {D : Type*} (σ α : Perm D) (T : D → Prop) : Prop where
  inv : ∀ x, α (α x) = x
  ne : ∀ x, α x ≠ x
  turn : ∀ x, T x → σ (σ x) = x
  move : ∀ x, T x → σ x ≠ x
  same : ∀ x, T (σ x) ↔ T x

section
variable {D : Type*} {σ α : Perm D} {T : D → Prop}

/-- The path that starts with `d` ends. -/
def Stops (σ α : Perm D) (T : D → Prop) (d : D) : Prop := ∃ k, ¬ T (((σ * α) ^ (k + 1)) d)

theorem stops_of_not [Finite D] {d : D} (h : ¬ T d) : Stops σ α T d := by
  refine ⟨orderOf (σ * α) - 1, ?_⟩
  have := orderOf_pos (σ * α)
  rw [Nat.sub_add_cancel this, pow_orderOf_eq_one]
  exact h

open Classical in
/-- The number of inner vertices of the path. -/
noncomputable def len (σ α : Perm D) (T : D → Prop) (d : D) : Nat :=
  if h : Stops σ α T d then Nat.find h else 0

/-- The last dart of the path. -/
noncomputable def lastDart (σ α : Perm D) (T : D → Prop) (d : D) : D := ((σ * α) ^ len σ α T d) d

/-- The first dart of the path in the other direction. -/
noncomputable def rev (σ α : Perm D) (T : D → Prop) (d : D) : D := α (lastDart σ α T d)

/-- The darts of the path. -/
noncomputable def dartsOf (σ α : Perm D) (T : D → Prop) (d : D) : List D :=
  (List.range (len σ α T d + 1)).map fun i => ((σ * α) ^ i) d

theorem len_spec {d : D} (h : Stops σ α T d) : ¬ T (((σ * α) ^ (len σ α T d + 1)) d) := by
  classical
  unfold len
  rw [dif_pos h]
  exact Nat.find_spec h

theorem len_min {d : D} {i : Nat} (hi : i < len σ α T d) : T (((σ * α) ^ (i + 1)) d) := by
  classical
  unfold len at hi
  split at hi
  · rename_i h
    exact Classical.not_not.1 (Nat.find_min h hi)
  · omega

theorem len_eq {d : D} {k : Nat} (h1 : ∀ i, i < k → T (((σ * α) ^ (i + 1)) d)) (h2 : ¬ T (((σ * α) ^ (k + 1)) d)) :
    len σ α T d = k := by
  have hs : Stops σ α T d := ⟨k, h2⟩
  rcases Nat.lt_trichotomy (len σ α T d) k with h | h | h
  · exact absurd (h1 _ h) (len_spec hs)
  · exact h
  · exact absurd (len_min h) h2

theorem mem_dartsOf {d x : D} : x ∈ dartsOf σ α T d ↔ ∃ i, i ≤ len σ α T d ∧ ((σ * α) ^ i) d = x := by
  unfold dartsOf
  simp only [List.mem_map, List.mem_range, Nat.lt_succ_iff]

theorem phi_succ (d : D) (i : Nat) : ((σ * α) ^ (i + 1)) d = σ (α (((σ * α) ^ i) d)) := by
  rw [pow_succ', mul_apply, mul_apply]

theorem self_mem (d : D) : d ∈ dartsOf σ α T d := mem_dartsOf.2 ⟨0, Nat.zero_le _, rfl⟩

theorem last_mem (d : D) : lastDart σ α T d ∈ dartsOf σ α T d := mem_dartsOf.2 ⟨_, le_rfl, rfl⟩

variable (h : Thread σ α T)
include h

theorem not_rev {d : D} (hs : Stops σ α T d) : ¬ T (rev σ α T d) := by
  have h1 := len_spec hs
  rw [phi_succ, h.same] at h1
  exact h1

/-- The path backwards. -/
theorem rev_pow (d : D) : ∀ i, i ≤ len σ α T d → ((σ * α) ^ i) (rev σ α T d) = α (((σ * α) ^ (len σ α T d - i)) d) := by
  intro i
  induction i with
  | zero => intro _; rfl
  | succ i ih =>
    intro hi
    rw [phi_succ, ih (by omega), h.inv]
    have h1 : len σ α T d - i = (len σ α T d - (i + 1)) + 1 := by omega
    rw [h1, phi_succ]
    have h2 : T (((σ * α) ^ (len σ α T d - (i + 1) + 1)) d) := len_min (by omega)
    rw [phi_succ, h.same] at h2
    exact h.turn _ h2

theorem len_rev {d : D} (hd : ¬ T d) : len σ α T (rev σ α T d) = len σ α T d := by
  apply len_eq
  · intro i hi
    rw [rev_pow h d (i + 1) hi, ← h.same]
    have h1 : σ (α (((σ * α) ^ (len σ α T d - (i + 1))) d)) = ((σ * α) ^ (len σ α T d - (i + 1) + 1)) d :=
      (phi_succ d _).symm
    rw [h1]
    exact len_min (by omega)
  · rw [phi_succ, rev_pow h d _ le_rfl, h.inv, h.same, Nat.sub_self]
    exact hd

theorem rev_rev {d : D} (hd : ¬ T d) : rev σ α T (rev σ α T d) = d := by
  have h1 := rev_pow h d (len σ α T d) le_rfl
  show α (((σ * α) ^ len σ α T (rev σ α T d)) (rev σ α T d)) = d
  rw [len_rev h hd, h1, h.inv, Nat.sub_self]
  rfl

theorem mem_rev {d x : D} (hd : ¬ T d) : x ∈ dartsOf σ α T (rev σ α T d) ↔ α x ∈ dartsOf σ α T d := by
  rw [mem_dartsOf, mem_dartsOf, len_rev h hd]
  constructor
  · rintro ⟨i, hi, rfl⟩
    refine ⟨len σ α T d - i, by omega, ?_⟩
    rw [rev_pow h d i hi, h.inv]
  · rintro ⟨i, hi, he⟩
    refine ⟨len σ α T d - i, by omega, ?_⟩
    rw [rev_pow h d _ (by omega), show len σ α T d - (len σ α T d - i) = i by omega, he, h.inv]

omit h in
/-- Paths from vertices of other degree meet only if they are the same. -/
theorem path_same {d d' : D} (hd : ¬ T d) (hd' : ¬ T d') {i j : Nat} (hi : i ≤ len σ α T d) (hj : j ≤ len σ α T d')
    (he : ((σ * α) ^ i) d = ((σ * α) ^ j) d') : d = d' ∧ i = j := by
  have key : ∀ {d d' : D}, ¬ T d → ∀ {i j : Nat}, j ≤ len σ α T d' → i ≤ j →
      ((σ * α) ^ i) d = ((σ * α) ^ j) d' → d = d' ∧ i = j := by
    intro d d' hd i j hj hij he
    have h1 : d = ((σ * α) ^ (j - i)) d' := by
      apply ((σ * α) ^ i).injective
      rw [he, ← mul_apply, ← pow_add]
      congr 2
      omega
    rcases Nat.eq_or_lt_of_le hij with h2 | h2
    · subst h2
      rw [Nat.sub_self] at h1
      exact ⟨h1, rfl⟩
    · exfalso
      apply hd
      rw [h1, show j - i = (j - i - 1) + 1 by omega]
      exact len_min (by omega)
  rcases Nat.le_total i j with h1 | h1
  · exact key hd hj h1 he
  · obtain ⟨h2, h3⟩ := key hd' hi h1 he.symm
    exact ⟨h2.symm, h3.symm⟩

omit h in
theorem nodup_dartsOf {d : D} (hd : ¬ T d) : (dartsOf σ α T d).Nodup := by
  unfold dartsOf
  refine (List.nodup_map_iff_inj_on List.nodup_range).2 ?_
  intro i hi j hj he
  exact (path_same hd hd (Nat.lt_succ_iff.1 (List.mem_range.1 hi)) (Nat.lt_succ_iff.1 (List.mem_range.1 hj)) he).2

omit h in
theorem dartsOf_disjoint {d d' x : D} (hd : ¬ T d) (hd' : ¬ T d') (h1 : x ∈ dartsOf σ α T d)
    (h2 : x ∈ dartsOf σ α T d') : d = d' := by
  obtain ⟨i, hi, rfl⟩ := mem_dartsOf.1 h1
  obtain ⟨j, hj, he⟩ := mem_dartsOf.1 h2
  exact (path_same hd hd' hi hj he.symm).1

/-- Paths that together use every dart once. -/
theorem cover_nodup [Finite D] {ds : List D} (hT : ∀ d ∈ ds, ¬ T d) (hn : ds.Nodup)
    (hr : ∀ d ∈ ds, ∀ d' ∈ ds, d ≠ rev σ α T d') :
    (ds.flatMap (dartsOf σ α T) ++ (ds.flatMap (dartsOf σ α T)).map α).Nodup := by
  have h1 : (ds.flatMap (dartsOf σ α T)).Nodup := by
    rw [List.nodup_flatMap]
    refine ⟨fun d hd => nodup_dartsOf (hT d hd), ?_⟩
    rw [List.nodup_iff_pairwise_ne] at hn
    refine hn.imp_of_mem ?_
    intro a b ha hb hab x hx hy
    exact hab (dartsOf_disjoint (hT a ha) (hT b hb) hx hy)
  rw [List.nodup_append]
  refine ⟨h1, h1.map α.injective, ?_⟩
  intro a ha b hb hab
  subst hab
  obtain ⟨y, hy, rfl⟩ := List.mem_map.1 hb
  obtain ⟨d, hd, h2⟩ := List.mem_flatMap.1 ha
  obtain ⟨d', hd', h3⟩ := List.mem_flatMap.1 hy
  have h4 : α y ∈ dartsOf σ α T (rev σ α T d') := (mem_rev h (hT d' hd')).2 (by rw [h.inv]; exact h3)
  exact hr d hd d' hd' (dartsOf_disjoint (hT d hd) (not_rev h (stops_of_not (hT d' hd'))) h2 h4)

theorem cover_mem {ds : List D} (hb : ∀ x, ¬ T x → ∃ d ∈ ds, x = d ∨ x = rev σ α T d)
    (hi : ∀ x, T x → ∃ d ∈ ds, ∃ i, i < len σ α T d ∧ SameCycle σ x (((σ * α) ^ (i + 1)) d)) (x : D) :
    x ∈ ds.flatMap (dartsOf σ α T) ++ (ds.flatMap (dartsOf σ α T)).map α := by
  rw [List.mem_append]
  by_cases hx : T x
  · obtain ⟨d, hd, i, hi, n, hs⟩ := hi x hx
    have hcyc : ∀ y, T y → ∀ n : ℤ, (σ ^ n) y = y ∨ (σ ^ n) y = σ y := by
      intro y hy n
      have h2 : (σ ^ (2 : ℤ)) y = y := by
        have := h.turn y hy
        rwa [← mul_apply, ← pow_two, ← zpow_natCast] at this
      have h3 : ∀ m : ℤ, (σ ^ (2 * m)) y = y := by
        intro m
        rw [zpow_mul]
        exact zpow_apply_eq_self_of_apply_eq_self h2 m
      obtain ⟨m, hm | hm⟩ := Int.even_or_odd' n
      · left; rw [hm, h3]
      · right; rw [hm, add_comm, zpow_add, zpow_one, mul_apply, h3]
    rcases hcyc x hx n with h1 | h1
    · left
      rw [hs] at h1
      exact List.mem_flatMap.2 ⟨d, hd, mem_dartsOf.2 ⟨i + 1, hi, h1⟩⟩
    · right
      rw [hs] at h1
      rw [phi_succ] at h1
      have h2 := σ.injective h1
      exact List.mem_map.2 ⟨_, List.mem_flatMap.2 ⟨d, hd, mem_dartsOf.2 ⟨i, by omega, rfl⟩⟩, h2⟩
  · obtain ⟨d, hd, h1 | h1⟩ := hb x hx
    · subst h1
      exact .inl (List.mem_flatMap.2 ⟨x, hd, self_mem x⟩)
    · subst h1
      exact .inr (List.mem_map.2 ⟨lastDart σ α T d, List.mem_flatMap.2 ⟨d, hd, last_mem d⟩, rfl⟩)

end
end Verif.Map
