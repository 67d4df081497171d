import Verif.Map.Outer
import Mathlib.Data.Fintype.Card
import Mathlib.Data.Fin.VecNotation
import Mathlib.Tactic.FinCases

/-
Contraction of edges in a plane map, and minors that no plane map has.
-/
namespace Verif.Map
open Equiv Equiv.Perm

variable {D : Type} [Finite D] [DecidableEq D]

omit [Finite D] [DecidableEq D] in
theorem same_of_le {r : Setoid D} {f : Perm D} (h : SameCycle.setoid f ≤ r) {a b : D} (hs : SameCycle f a b) : r a b := h hs

/-- One edge contracted. -/
theorem contract_one {σ α : Perm D} (hα : ∀ x, α (α x) = x) (hf : Flat σ α) (e : D) :
    ∃ σ' : Perm D, Flat σ' α ∧ SameCycle σ' e (α e) ∧ SameCycle.setoid σ ≤ SameCycle.setoid σ' ∧
      (∀ r : Setoid D, SameCycle.setoid σ ≤ r → r e (α e) → SameCycle.setoid σ' ≤ r) ∧ (Outer σ α → Outer σ' α) := by
  by_cases hs : SameCycle σ e (α e)
  · exact ⟨σ, hf, hs, le_rfl, fun r hr _ => hr, id⟩
  · have hst : SameCycle σ (α e) (σ (α e)) := same_step σ (α e)
    have hs' : ¬ SameCycle σ e (σ (α e)) := fun hh => hs (hh.trans hst.symm)
    have hface : SameCycle (σ * α) e (σ (α e)) := same_step (σ * α) e
    have hj := left_joins hs'
    have hle : SameCycle.setoid σ ≤ SameCycle.setoid (swap e (σ (α e)) * σ) :=
      (left_merged' σ e (σ (α e))).trans (merged_le le_rfl hj)
    refine ⟨swap e (σ (α e)) * σ, hf.join hα hs' (.inr hface), hj.trans (hle hst.symm), hle, ?_, fun hO => hO.contract hs⟩
    intro r hr hre
    refine cycle_le fun x => ?_
    have h1 : r x (σ x) := hr (same_step σ x)
    rw [mul_apply]
    have hpq : r e (σ (α e)) := r.trans hre (hr hst)
    rcases swap_apply_eq_iff_cases e (σ (α e)) (σ x) with h | h | h
    · rw [h.2]; rw [h.1] at h1; exact r.trans h1 hpq
    · rw [h.2]; rw [h.1] at h1; exact r.trans h1 (r.symm hpq)
    · rw [h]; exact h1
where
  swap_apply_eq_iff_cases (a b x : D) : (x = a ∧ swap a b x = b) ∨ (x = b ∧ swap a b x = a) ∨ swap a b x = x := by
    by_cases h1 : x = a
    · subst h1; exact .inl ⟨rfl, swap_apply_left _ _⟩
    · by_cases h2 : x = b
      · subst h2; exact .inr (.inl ⟨rfl, swap_apply_right _ _⟩)
      · exact .inr (.inr (swap_apply_of_ne_of_ne h1 h2))

/-- The edges of a set contracted. -/
theorem contract {α : Perm D} (hα : ∀ x, α (α x) = x) : ∀ (K : List D) (σ : Perm D), Flat σ α →
    ∃ σ' : Perm D, Flat σ' α ∧ (∀ e ∈ K, SameCycle σ' e (α e)) ∧ SameCycle.setoid σ ≤ SameCycle.setoid σ' ∧
      (∀ r : Setoid D, SameCycle.setoid σ ≤ r → (∀ e ∈ K, r e (α e)) → SameCycle.setoid σ' ≤ r) ∧ (Outer σ α → Outer σ' α) := by
  intro K
  induction K with
  | nil => intro σ hf; exact ⟨σ, hf, by simp, le_rfl, fun r hr _ => hr, id⟩
  | cons e K ih =>
    intro σ hf
    obtain ⟨σ1, f1, s1, l1, u1, o1⟩ := contract_one hα hf e
    obtain ⟨σ2, f2, s2, l2, u2, o2⟩ := ih σ1 f1
    refine ⟨σ2, f2, ?_, l1.trans l2, ?_, o2 ∘ o1⟩
    · intro x hx
      rcases List.mem_cons.1 hx with rfl | hx
      · exact l2 s1
      · exact s2 x hx
    · intro r hr hK
      exact u2 r (u1 r hr (hK e (by simp))) fun x hx => hK x (by simp [hx])

section
variable {n : ℕ} {P : Fin n → Fin n → Prop}

/-- Darts of a plane map that make a graph with vertices `Fin n` and adjacency `P`, the vertices of the map being merged
beforehand. -/
structure Pattern (σ α : Perm D) (P : Fin n → Fin n → Prop) (E : Fin n → Fin n → D) : Prop where
  pair : ∀ i j, P i j → α (E i j) = E j i
  own : ∀ i j i' j', P i j → P i' j' → (SameCycle σ (E i j) (E i' j') ↔ i = i')

variable {σ α : Perm D} {E : Fin n → Fin n → D} (hsym : ∀ i j, P i j → P j i)

def Pattern.set (P : Fin n → Fin n → Prop) (E : Fin n → Fin n → D) : Set D := { d | ∃ i j, P i j ∧ E i j = d }

omit [Finite D] [DecidableEq D] in
include hsym in
theorem Pattern.closed (h : Pattern σ α P E) : Closed α (Pattern.set P E) := by
  rintro _ ⟨i, j, hp, rfl⟩
  exact ⟨j, i, hsym i j hp, (h.pair i j hp).symm⟩

omit [Finite D] [DecidableEq D] in
include hsym in
theorem Pattern.inj (h : Pattern σ α P E) {i j i' j' : Fin n} (hp : P i j) (hp' : P i' j') (he : E i j = E i' j') : i = i' ∧ j = j' := by
  constructor
  · exact (h.own i j i' j' hp hp').1 (he ▸ SameCycle.refl _ _)
  · have : E j i = E j' i' := by rw [← h.pair i j hp, ← h.pair i' j' hp', he]
    exact (h.own j i j' i' (hsym _ _ hp) (hsym _ _ hp')).1 (this ▸ SameCycle.refl _ _)

include hsym in
/-- On a face an edge of the pattern is followed by another one. -/
theorem Pattern.next (hα : ∀ x, α (α x) = x) (h : Pattern σ α P E) (hdeg : ∀ i j, P i j → ∃ k, k ≠ i ∧ P j k) {i j : Fin n}
    (hp : P i j) : ∃ k, k ≠ i ∧ P j k ∧ SameCycle (σ * restr hα (Pattern.set P E) (h.closed hsym)) (E i j) (E j k) := by
  obtain ⟨k0, hk0, hk0'⟩ := hdeg i j hp
  have hne : E j k0 ≠ α (E i j) := by
    rw [h.pair i j hp]
    intro hh
    exact hk0 (h.inj hsym hk0' (hsym _ _ hp) hh).2
  have hsame : SameCycle σ (α (E i j)) (E j k0) := by
    rw [h.pair i j hp]
    exact (h.own j i j k0 (hsym _ _ hp) hk0').2 rfl
  obtain ⟨z, ⟨j', k, hjk, rfl⟩, h1, h2, h3⟩ := turn hα σ (h.closed hsym) ⟨i, j, hp, rfl⟩ ⟨j, k0, hk0', rfl⟩ hsame hne
  rw [h.pair i j hp] at h1 h2
  have hj : j = j' := (h.own j i j' k (hsym _ _ hp) hjk).1 h1
  subst hj
  exact ⟨k, fun hh => h2 (by rw [hh]), hjk, h3⟩

include hsym in
/-- The count of the faces. -/
theorem Pattern.faces [DecidableRel P] (hα : ∀ x, α (α x) = x) (hne : ∀ x, α x ≠ x) (hF : Flat σ α) (h : Pattern σ α P E)
    (hn : ∃ i j, P i j) :
    (Finset.univ.filter fun p : Fin n × Fin n => P p.1 p.2).card + 4 ≤
        2 * hit (SameCycle.setoid (σ * restr hα (Pattern.set P E) (h.closed hsym))) (Pattern.set P E) + 2 * n ∧
      (Pattern.set P E).ncard = (Finset.univ.filter fun p : Fin n × Fin n => P p.1 p.2).card := by
  classical
  have hS := h.closed hsym
  obtain ⟨i0, j0, h0⟩ := hn
  have h1 := face_bound hα hne hF hS ⟨E i0 j0, i0, j0, h0, rfl⟩
  have hset : Pattern.set P E = ((Finset.univ.filter fun p : Fin n × Fin n => P p.1 p.2).image fun p => E p.1 p.2 : Finset D) := by
    ext d
    rw [Finset.coe_image]
    constructor
    · rintro ⟨i, j, hp, rfl⟩
      exact ⟨(i, j), by simpa using hp, rfl⟩
    · rintro ⟨⟨i, j⟩, hp, rfl⟩
      exact ⟨i, j, by simpa using hp, rfl⟩
  have hcard : (Pattern.set P E).ncard = (Finset.univ.filter fun p : Fin n × Fin n => P p.1 p.2).card := by
    rw [hset, Set.ncard_coe_finset, Finset.card_image_of_injOn]
    rintro ⟨i, j⟩ hp ⟨i', j'⟩ hp' he
    have hp : P i j := by simpa using hp
    have hp' : P i' j' := by simpa using hp'
    obtain ⟨rfl, rfl⟩ := h.inj hsym hp hp' he
    rfl
  have hv : hit (SameCycle.setoid σ) (Pattern.set P E) ≤ n := by
    unfold hit
    have : (Set.univ : Set (Fin n)).ncard = n := by rw [Set.ncard_univ, Nat.card_eq_fintype_card, Fintype.card_fin]
    conv_rhs => rw [← this]
    refine Set.ncard_le_ncard_of_injOn
      (fun q => if hq : ∃ i, ∃ j, P i j ∧ Quotient.mk (SameCycle.setoid σ) (E i j) = q then hq.choose else i0) (fun _ _ => Set.mem_univ _) ?_
      (Set.toFinite _)
    rintro _ ⟨_, ⟨i, j, hp, rfl⟩, rfl⟩ _ ⟨_, ⟨i', j', hp', rfl⟩, rfl⟩ he
    have hq : ∃ k, ∃ l, P k l ∧ Quotient.mk (SameCycle.setoid σ) (E k l) = Quotient.mk _ (E i j) := ⟨i, j, hp, rfl⟩
    have hq' : ∃ k, ∃ l, P k l ∧ Quotient.mk (SameCycle.setoid σ) (E k l) = Quotient.mk _ (E i' j') := ⟨i', j', hp', rfl⟩
    simp only [hq, hq', dif_pos] at he
    obtain ⟨l, c1, c2⟩ := hq.choose_spec
    obtain ⟨l', c1', c2'⟩ := hq'.choose_spec
    rw [← c2, ← c2']
    exact Quotient.sound ((h.own _ _ _ _ c1 c1').2 he)
  rw [hcard] at h1
  exact ⟨by omega, hcard⟩

include hsym in
/-- Faces of at least `m` edges. -/
theorem Pattern.count [DecidableRel P] (hα : ∀ x, α (α x) = x) (hne : ∀ x, α x ≠ x) (hF : Flat σ α) (h : Pattern σ α P E) {m : ℕ}
    (hn : ∃ i j, P i j)
    (hm : ∀ i j, P i j → ∃ L : List D, L.Nodup ∧ L.length = m ∧ ∀ y ∈ L, y ∈ Pattern.set P E ∧
      SameCycle (σ * restr hα (Pattern.set P E) (h.closed hsym)) y (E i j)) :
    ∃ f, (Finset.univ.filter fun p : Fin n × Fin n => P p.1 p.2).card + 4 ≤ 2 * f + 2 * n ∧
      m * f ≤ (Finset.univ.filter fun p : Fin n × Fin n => P p.1 p.2).card := by
  obtain ⟨h1, hcard⟩ := h.faces hsym hα hne hF hn
  have h2 := hit_mul_le (S := Pattern.set P E) (X := Pattern.set P E) (m := m)
    (r := SameCycle.setoid (σ * restr hα (Pattern.set P E) (h.closed hsym))) (by
      rintro _ ⟨i, j, hp, rfl⟩
      exact hm i j hp)
  rw [hcard] at h2
  exact ⟨_, h1, h2⟩

include hsym in
/-- All vertices of the pattern are on one face. -/
theorem Pattern.around (hα : ∀ x, α (α x) = x) (hF : Flat σ α) (hO : Outer σ α) (h : Pattern σ α P E) (hn : ∀ i, ∃ j, P i j)
    (hcon : ∀ i j, i = j ∨ P i j ∨ ∃ k, P i k ∧ P k j) :
    ∃ Z : Fin n → D, Function.Injective Z ∧ ∀ i j, Z i ∈ Pattern.set P E ∧
      SameCycle (σ * restr hα (Pattern.set P E) (h.closed hsym)) (Z i) (Z j) := by
  classical
  obtain ⟨O, o1, o2⟩ := hO.restr hα hF (h.closed hsym)
  choose nb hnb using hn
  have hex : ∀ i, ∃ y, (SameCycle σ (E i (nb i)) y ∧ O y) ∧ ∃ z ∈ Pattern.set P E, SameCycle σ y z ∧
      SameCycle (σ * restr hα (Pattern.set P E) (h.closed hsym)) y z := by
    intro i
    obtain ⟨y, y1, y2⟩ := o1 (E i (nb i))
    exact ⟨y, ⟨y1, y2⟩, reach hα (h.closed hsym) ⟨i, nb i, hnb i, rfl⟩ y1.symm⟩
  choose Y hY Z hZ1 hZ2 hZ3 using hex
  have hone : ∀ i j, P i j → joined σ (restr hα (Pattern.set P E) (h.closed hsym)) (E i (nb i)) (E j (nb j)) := by
    intro i j hp
    have hσ : SameCycle.setoid σ ≤ joined σ (restr hα (Pattern.set P E) (h.closed hsym)) := le_sup_left
    have hr : SameCycle.setoid (restr hα (Pattern.set P E) (h.closed hsym)) ≤ joined σ (restr hα (Pattern.set P E) (h.closed hsym)) := le_sup_right
    have e1 := hσ ((h.own i (nb i) i j (hnb i) hp).2 rfl)
    have e2 := hr (restr_same hα (h.closed hsym) (a := E i j) ⟨i, j, hp, rfl⟩)
    rw [h.pair i j hp] at e2
    have e3 := hσ ((h.own j i j (nb j) (hsym _ _ hp) (hnb j)).2 rfl)
    exact Setoid.trans' _ e1 (Setoid.trans' _ e2 e3)
  have hall : ∀ i j, joined σ (restr hα (Pattern.set P E) (h.closed hsym)) (E i (nb i)) (E j (nb j)) := by
    intro i j
    rcases hcon i j with rfl | hp | ⟨k, k1, k2⟩
    · exact Setoid.refl' _ _
    · exact hone i j hp
    · exact Setoid.trans' _ (hone i k k1) (hone k j k2)
  refine ⟨Z, ?_, fun i j => ⟨hZ1 i, ?_⟩⟩
  · intro i j hij
    obtain ⟨i', k, hp, e⟩ := hZ1 i
    have hi : SameCycle σ (E i (nb i)) (Z i) := (hY i).1.trans (hZ2 i)
    have hj : SameCycle σ (E j (nb j)) (Z j) := (hY j).1.trans (hZ2 j)
    rw [← hij] at hj
    exact (h.own i (nb i) j (nb j) (hnb i) (hnb j)).1 (hi.trans hj.symm)
  · refine ((hZ3 i).symm.trans (o2 _ _ (hY i).2 (hY j).2 ?_)).trans (hZ3 j)
    have hσ : SameCycle.setoid σ ≤ joined σ (restr hα (Pattern.set P E) (h.closed hsym)) := le_sup_left
    exact Setoid.trans' _ (Setoid.symm' _ (hσ (hY i).1)) (Setoid.trans' _ (hall i j) (hσ (hY j).1))

include hsym in
/-- Faces of at least `m` edges, one of them with a dart at each of `m + 1` vertices. -/
theorem Pattern.count_outer [DecidableRel P] (hα : ∀ x, α (α x) = x) (hne : ∀ x, α x ≠ x) (hF : Flat σ α) (hO : Outer σ α)
    (h : Pattern σ α P E) {m : ℕ} (hnm : n = m + 1) (hn : ∀ i, ∃ j, P i j) (hcon : ∀ i j, i = j ∨ P i j ∨ ∃ k, P i k ∧ P k j)
    (hm : ∀ i j, P i j → ∃ L : List D, L.Nodup ∧ L.length = m ∧ ∀ y ∈ L, y ∈ Pattern.set P E ∧
      SameCycle (σ * restr hα (Pattern.set P E) (h.closed hsym)) y (E i j)) :
    ∃ f, (Finset.univ.filter fun p : Fin n × Fin n => P p.1 p.2).card + 4 ≤ 2 * f + 2 * n ∧
      m * f + 1 ≤ (Finset.univ.filter fun p : Fin n × Fin n => P p.1 p.2).card := by
  have i0 : Fin n := ⟨0, by omega⟩
  obtain ⟨h1, hcard⟩ := h.faces hsym hα hne hF ⟨i0, (hn i0).choose, (hn i0).choose_spec⟩
  obtain ⟨Z, z1, z2⟩ := h.around hsym hα hF hO hn hcon
  have h2 := hit_mul_lt (S := Pattern.set P E) (X := Pattern.set P E) (m := m)
    (r := SameCycle.setoid (σ * restr hα (Pattern.set P E) (h.closed hsym))) (by
      rintro _ ⟨i, j, hp, rfl⟩
      exact hm i j hp) (x0 := Z i0) (L0 := (List.finRange n).map Z) ((List.nodup_finRange n).map z1) (by simp [hnm]) (by
      intro y hy
      obtain ⟨i, _, rfl⟩ := List.mem_map.1 hy
      exact z2 i i0)
  rw [hcard] at h2
  exact ⟨_, h1, h2⟩

end

/-- Adjacency in K5. -/
def adjK5 (i j : Fin 5) : Prop := i ≠ j
/-- Adjacency in K3,3. -/
def adjK33 (i j : Fin 6) : Prop := ¬ (i.1 < 3 ↔ j.1 < 3)

instance : DecidableRel adjK5 := fun i j => inferInstanceAs (Decidable (i ≠ j))
instance : DecidableRel adjK33 := fun i j => inferInstanceAs (Decidable (¬ (i.1 < 3 ↔ j.1 < 3)))

variable {σ α : Perm D}

/-- No plane map has K5. -/
theorem no_k5 (hα : ∀ x, α (α x) = x) (hne : ∀ x, α x ≠ x) (hF : Flat σ α) {E : Fin 5 → Fin 5 → D} (h : Pattern σ α adjK5 E) : False := by
  have hsym : ∀ i j, adjK5 i j → adjK5 j i := by decide
  have hdeg : ∀ i j, adjK5 i j → ∃ k, k ≠ i ∧ adjK5 j k := by decide
  obtain ⟨f, h1, h2⟩ := h.count hsym hα hne hF (m := 3) ⟨0, 1, by decide⟩ (by
    intro i j hp
    obtain ⟨k, k1, k2, k3⟩ := h.next hsym hα hdeg hp
    obtain ⟨l, l1, l2, l3⟩ := h.next hsym hα hdeg k2
    refine ⟨[E i j, E j k, E k l], ?_, rfl, ?_⟩
    · have e1 : E i j ≠ E j k := fun hh => hp (h.inj hsym hp k2 hh).1
      have e2 : E i j ≠ E k l := fun hh => k1 (h.inj hsym hp l2 hh).1.symm
      have e3 : E j k ≠ E k l := fun hh => k2 (h.inj hsym k2 l2 hh).1
      simp [e1, e2, e3]
    · simp only [List.mem_cons, List.not_mem_nil, or_false]
      rintro y (rfl | rfl | rfl)
      · exact ⟨⟨_, _, hp, rfl⟩, SameCycle.refl _ _⟩
      · exact ⟨⟨_, _, k2, rfl⟩, k3.symm⟩
      · exact ⟨⟨_, _, l2, rfl⟩, (k3.trans l3).symm⟩)
  have hc : (Finset.univ.filter fun p : Fin 5 × Fin 5 => adjK5 p.1 p.2).card = 20 := by decide +kernel
  omega

/-- No plane map has K3,3. -/
theorem no_k33 (hα : ∀ x, α (α x) = x) (hne : ∀ x, α x ≠ x) (hF : Flat σ α) {E : Fin 6 → Fin 6 → D} (h : Pattern σ α adjK33 E) : False := by
  have hsym : ∀ i j, adjK33 i j → adjK33 j i := by decide
  have hdeg : ∀ i j, adjK33 i j → ∃ k, k ≠ i ∧ adjK33 j k := by decide
  have hirr : ∀ i j, adjK33 i j → i ≠ j := by decide
  obtain ⟨f, h1, h2⟩ := h.count hsym hα hne hF (m := 4) ⟨0, 3, by decide⟩ (by
    intro i j hp
    obtain ⟨k, k1, k2, k3⟩ := h.next hsym hα hdeg hp
    obtain ⟨l, l1, l2, l3⟩ := h.next hsym hα hdeg k2
    obtain ⟨m, m1, m2, m3⟩ := h.next hsym hα hdeg l2
    refine ⟨[E i j, E j k, E k l, E l m], ?_, rfl, ?_⟩
    · have e1 : E i j ≠ E j k := fun hh => hirr _ _ hp (h.inj hsym hp k2 hh).1
      have e2 : E i j ≠ E k l := fun hh => k1 (h.inj hsym hp l2 hh).1.symm
      have e3 : E j k ≠ E k l := fun hh => hirr _ _ k2 (h.inj hsym k2 l2 hh).1
      have e4 : E i j ≠ E l m := by
        intro hh
        have := (h.inj hsym hp m2 hh).1
        subst this
        unfold adjK33 at hp k2 l2
        omega
      have e5 : E j k ≠ E l m := fun hh => l1 (h.inj hsym k2 m2 hh).1.symm
      have e6 : E k l ≠ E l m := fun hh => hirr _ _ l2 (h.inj hsym l2 m2 hh).1
      simp [e1, e2, e3, e4, e5, e6]
    · simp only [List.mem_cons, List.not_mem_nil, or_false]
      rintro y (rfl | rfl | rfl | rfl)
      · exact ⟨⟨_, _, hp, rfl⟩, SameCycle.refl _ _⟩
      · exact ⟨⟨_, _, k2, rfl⟩, k3.symm⟩
      · exact ⟨⟨_, _, l2, rfl⟩, (k3.trans l3).symm⟩
      · exact ⟨⟨_, _, m2, rfl⟩, ((k3.trans l3).trans m3).symm⟩)
  have hc : (Finset.univ.filter fun p : Fin 6 × Fin 6 => adjK33 p.1 p.2).card = 18 := by decide +kernel
  omega

/-- Adjacency in K4. -/
def adjK4 (i j : Fin 4) : Prop := i ≠ j
/-- Adjacency in K2,3. -/
def adjK23 (i j : Fin 5) : Prop := ¬ (i.1 < 2 ↔ j.1 < 2)

instance : DecidableRel adjK4 := fun i j => inferInstanceAs (Decidable (i ≠ j))
instance : DecidableRel adjK23 := fun i j => inferInstanceAs (Decidable (¬ (i.1 < 2 ↔ j.1 < 2)))

/-- No plane map with all vertices on one face has K4. -/
theorem no_k4 (hα : ∀ x, α (α x) = x) (hne : ∀ x, α x ≠ x) (hF : Flat σ α) (hO : Outer σ α) {E : Fin 4 → Fin 4 → D}
    (h : Pattern σ α adjK4 E) : False := by
  have hsym : ∀ i j, adjK4 i j → adjK4 j i := by decide
  have hdeg : ∀ i j, adjK4 i j → ∃ k, k ≠ i ∧ adjK4 j k := by decide
  obtain ⟨f, h1, h2⟩ := h.count_outer hsym hα hne hF hO (m := 3) rfl (by decide) (by decide) (by
    intro i j hp
    obtain ⟨k, k1, k2, k3⟩ := h.next hsym hα hdeg hp
    obtain ⟨l, l1, l2, l3⟩ := h.next hsym hα hdeg k2
    refine ⟨[E i j, E j k, E k l], ?_, rfl, ?_⟩
    · have e1 : E i j ≠ E j k := fun hh => hp (h.inj hsym hp k2 hh).1
      have e2 : E i j ≠ E k l := fun hh => k1 (h.inj hsym hp l2 hh).1.symm
      have e3 : E j k ≠ E k l := fun hh => k2 (h.inj hsym k2 l2 hh).1
      simp [e1, e2, e3]
    · simp only [List.mem_cons, List.not_mem_nil, or_false]
      rintro y (rfl | rfl | rfl)
      · exact ⟨⟨_, _, hp, rfl⟩, SameCycle.refl _ _⟩
      · exact ⟨⟨_, _, k2, rfl⟩, k3.symm⟩
      · exact ⟨⟨_, _, l2, rfl⟩, (k3.trans l3).symm⟩)
  have hc : (Finset.univ.filter fun p : Fin 4 × Fin 4 => adjK4 p.1 p.2).card = 12 := by decide +kernel
  omega

/-- No plane map with all vertices on one face has K2,3. -/
theorem no_k23 (hα : ∀ x, α (α x) = x) (hne : ∀ x, α x ≠ x) (hF : Flat σ α) (hO : Outer σ α) {E : Fin 5 → Fin 5 → D}
    (h : Pattern σ α adjK23 E) : False := by
  have hsym : ∀ i j, adjK23 i j → adjK23 j i := by decide
  have hdeg : ∀ i j, adjK23 i j → ∃ k, k ≠ i ∧ adjK23 j k := by decide
  have hirr : ∀ i j, adjK23 i j → i ≠ j := by decide
  obtain ⟨f, h1, h2⟩ := h.count_outer hsym hα hne hF hO (m := 4) rfl (by decide) (by decide) (by
    intro i j hp
    obtain ⟨k, k1, k2, k3⟩ := h.next hsym hα hdeg hp
    obtain ⟨l, l1, l2, l3⟩ := h.next hsym hα hdeg k2
    obtain ⟨m, m1, m2, m3⟩ := h.next hsym hα hdeg l2
    refine ⟨[E i j, E j k, E k l, E l m], ?_, rfl, ?_⟩
    · have e1 : E i j ≠ E j k := fun hh => hirr _ _ hp (h.inj hsym hp k2 hh).1
      have e2 : E i j ≠ E k l := fun hh => k1 (h.inj hsym hp l2 hh).1.symm
      have e3 : E j k ≠ E k l := fun hh => hirr _ _ k2 (h.inj hsym k2 l2 hh).1
      have e4 : E i j ≠ E l m := by
        intro hh
        have := (h.inj hsym hp m2 hh).1
        subst this
        unfold adjK23 at hp k2 l2
        omega
      have e5 : E j k ≠ E l m := fun hh => l1 (h.inj hsym k2 m2 hh).1.symm
      have e6 : E k l ≠ E l m := fun hh => hirr _ _ l2 (h.inj hsym l2 m2 hh).1
      simp [e1, e2, e3, e4, e5, e6]
    · simp only [List.mem_cons, List.not_mem_nil, or_false]
      rintro y (rfl | rfl | rfl | rfl)
      · exact ⟨⟨_, _, hp, rfl⟩, SameCycle.refl _ _⟩
      · exact ⟨⟨_, _, k2, rfl⟩, k3.symm⟩
      · exact ⟨⟨_, _, l2, rfl⟩, (k3.trans l3).symm⟩
      · exact ⟨⟨_, _, m2, rfl⟩, ((k3.trans l3).trans m3).symm⟩)
  have hc : (Finset.univ.filter fun p : Fin 5 × Fin 5 => adjK23 p.1 p.2).card = 12 := by decide +kernel
  omega

/-- Disjoint connected sets of vertices, adjacent as `P` says. -/
structure Minor {n : ℕ} (adj : Nat → Nat → Prop) (P : Fin n → Fin n → Prop) (S : Fin n → Nat → Prop) : Prop where
  disj : ∀ i j a, S i a → S j a → i = j
  conn : ∀ i a b, S i a → S i b → Relation.ReflTransGen (fun x y => adj x y ∧ S i x ∧ S i y) a b
  edge : ∀ i j, P i j → ∃ a b, S i a ∧ S j b ∧ adj a b

/-- A minor of the graph of a map is a pattern after contraction. -/
theorem Minor.pattern {n : ℕ} {P : Fin n → Fin n → Prop} {S : Fin n → Nat → Prop} (hα : ∀ x, α (α x) = x) (hF : Flat σ α)
    {vt : D → Nat} (hv : ∀ d d', SameCycle σ d d' ↔ vt d = vt d') (hsym : ∀ i j, P i j → P j i) (hirr : ∀ i j, P i j → i ≠ j)
    (hn : ∃ i j, P i j) (h : Minor (fun a b => ∃ d, vt d = a ∧ vt (α d) = b) P S) :
    ∃ (σ' : Perm D) (E : Fin n → Fin n → D), Flat σ' α ∧ Pattern σ' α P E ∧ (Outer σ α → Outer σ' α) := by
  classical
  have := Fintype.ofFinite D
  obtain ⟨σ', f1, f2, f3, f4, f5⟩ := contract hα
    ((Finset.univ : Finset D).filter fun d => ∃ i, S i (vt d) ∧ S i (vt (α d))).toList σ hF
  have hK : ∀ d, d ∈ ((Finset.univ : Finset D).filter fun d => ∃ i, S i (vt d) ∧ S i (vt (α d))).toList ↔
      ∃ i, S i (vt d) ∧ S i (vt (α d)) := fun d => by rw [Finset.mem_toList, Finset.mem_filter]; simp
  -- merged vertices are in one set
  have hsep : ∀ d d' i j, SameCycle σ' d d' → S i (vt d) → S j (vt d') → i = j := by
    intro d d' i j hs hi hj
    let r : Setoid D := ⟨fun a b => ∀ k, S k (vt a) ↔ S k (vt b), fun _ _ => Iff.rfl, fun hh k => (hh k).symm, fun h1 h2 k => (h1 k).trans (h2 k)⟩
    have hr : SameCycle.setoid σ' ≤ r := by
      refine f4 r ?_ ?_
      · intro a b hab k
        rw [(hv a b).1 hab]
      · intro e he k
        obtain ⟨i', h1, h2⟩ := (hK e).1 he
        constructor
        · intro hk; rw [h.disj _ _ _ hk h1]; exact h2
        · intro hk; rw [h.disj _ _ _ hk h2]; exact h1
    exact h.disj _ _ _ ((hr hs i).1 hi) hj
  have hjoin : ∀ d d' i, S i (vt d) → S i (vt d') → SameCycle σ' d d' := by
    intro d d' i hi hj
    have hp := h.conn i _ _ hi hj
    have key : ∀ b, Relation.ReflTransGen (fun x y => (∃ d, vt d = x ∧ vt (α d) = y) ∧ S i x ∧ S i y) (vt d) b →
        ∀ d', vt d' = b → SameCycle σ' d d' := by
      intro b hb
      induction hb with
      | refl => intro d' hd'; exact f3 ((hv d d').2 hd'.symm)
      | tail _ h2 ih =>
        intro d' hd'
        obtain ⟨⟨e, he1, he2⟩, h3, h4⟩ := h2
        refine (ih e he1).trans ((f2 e ((hK e).2 ⟨i, he1 ▸ h3, he2 ▸ h4⟩)).trans (f3 ((hv _ _).2 ?_)))
        rw [he2, hd']
    exact key _ hp d' rfl
  obtain ⟨i0, j0, hp0⟩ := hn
  obtain ⟨_, _, _, _, d0, _, _⟩ := h.edge i0 j0 hp0
  have hex : ∀ i j, ∃ d : D, P i j → S i (vt d) ∧ S j (vt (α d)) := by
    intro i j
    by_cases hp : P i j
    · obtain ⟨a, b, ha, hb, d, rfl, rfl⟩ := h.edge i j hp
      exact ⟨d, fun _ => ⟨ha, hb⟩⟩
    · exact ⟨d0, fun hh => absurd hh hp⟩
  choose f hf using hex
  let E : Fin n → Fin n → D := fun i j => if i < j then f i j else α (f j i)
  have hE : ∀ i j, P i j → S i (vt (E i j)) := by
    intro i j hp
    by_cases hij : i < j
    · simp only [E, if_pos hij]; exact (hf i j hp).1
    · simp only [E, if_neg hij]; exact (hf j i (hsym _ _ hp)).2
  refine ⟨σ', E, f1, ⟨?_, ?_⟩, f5⟩
  · intro i j hp
    have hne := hirr i j hp
    by_cases hij : i < j
    · have : ¬ j < i := by omega
      simp only [E, if_pos hij, if_neg this]
    · have : j < i := by omega
      simp only [E, if_neg hij, if_pos this, hα]
  · intro i j i' j' hp hp'
    constructor
    · intro hs; exact hsep _ _ _ _ hs (hE i j hp) (hE i' j' hp')
    · rintro rfl; exact hjoin _ _ _ (hE i j hp) (hE i j' hp')

/-- The graph of a plane map has neither K5 nor K3,3 as a minor. -/
theorem Minor.false {S5 : Fin 5 → Nat → Prop} {S6 : Fin 6 → Nat → Prop} (hα : ∀ x, α (α x) = x) (hne : ∀ x, α x ≠ x) (hF : Flat σ α)
    {vt : D → Nat} (hv : ∀ d d', SameCycle σ d d' ↔ vt d = vt d')
    (h : Minor (fun a b => ∃ d, vt d = a ∧ vt (α d) = b) adjK5 S5 ∨ Minor (fun a b => ∃ d, vt d = a ∧ vt (α d) = b) adjK33 S6) : False := by
  rcases h with h | h
  · obtain ⟨σ', E, h1, h2, _⟩ := h.pattern hα hF hv (by decide) (by decide) ⟨0, 1, by decide⟩
    exact no_k5 hα hne h1 h2
  · obtain ⟨σ', E, h1, h2, _⟩ := h.pattern hα hF hv (by decide) (by decide) ⟨0, 3, by decide⟩
    exact no_k33 hα hne h1 h2

/-- The graph of a plane map with all vertices on one face has neither K4 nor K2,3 as a minor. -/
theorem Minor.false_outer {S4 : Fin 4 → Nat → Prop} {S5 : Fin 5 → Nat → Prop} (hα : ∀ x, α (α x) = x) (hne : ∀ x, α x ≠ x) (hF : Flat σ α)
    (hO : Outer σ α) {vt : D → Nat} (hv : ∀ d d', SameCycle σ d d' ↔ vt d = vt d')
    (h : Minor (fun a b => ∃ d, vt d = a ∧ vt (α d) = b) adjK4 S4 ∨ Minor (fun a b => ∃ d, vt d = a ∧ vt (α d) = b) adjK23 S5) : False := by
  rcases h with h | h
  · obtain ⟨σ', E, h1, h2, h3⟩ := h.pattern hα hF hv (by decide) (by decide) ⟨0, 1, by decide⟩
    exact no_k4 hα hne h1 (h3 hO) h2
  · obtain ⟨σ', E, h1, h2, h3⟩ := h.pattern hα hF hv (by decide) (by decide) ⟨0, 2, by decide⟩
    exact no_k23 hα hne h1 (h3 hO) h2

end Verif.Map
