import Verif.Test.Theta

/-
A subdivision of K2,3 consists of three paths.
-/
namespace Verif
namespace Test
open Graph Map Equiv Equiv.Perm Props DFS

section
variable {g : Graph} {rot : Nat → List Nat} (h : Inv g rot) {B : Nat → Nat} {path : Nat × Nat → List Nat}
  (hnd : ((List.range 5).map B ++ edgesK23.flatMap path).Nodup)
  (hpr : ∀ w ∈ (List.range 5).map B ++ edgesK23.flatMap path, 1 ≤ w ∧ w ≤ g.N)
  (hnb : ∀ w, IsVertex g w → ∃ l, neighbors g w = some l ∧ l.Perm (around (steps B path edgesK23) w))

include hnd in
theorem path_apart {p q : Nat × Nat} (hp : p ∈ edgesK23) (hq : q ∈ edgesK23) (hpq : p ≠ q) {w : Nat} (h1 : w ∈ path p)
    (h2 : w ∈ path q) : False := by
  have h3 := (List.nodup_append.1 hnd).2.1
  rw [List.nodup_flatMap] at h3
  have h4 : ∀ l : List (Nat × Nat), l.Pairwise (Function.onFun List.Disjoint path) → p ∈ l → q ∈ l → False := by
    intro l
    induction l with
    | nil => intro _ hp; cases hp
    | cons r l ih =>
      intro hl hp hq
      obtain ⟨k1, k2⟩ := List.pairwise_cons.1 hl
      rcases List.mem_cons.1 hp with e1 | m1 <;> rcases List.mem_cons.1 hq with e2 | m2
      · exact hpq (e1.trans e2.symm)
      · exact k1 _ m2 (e1 ▸ h1) h2
      · exact k1 _ m1 (e2 ▸ h2) h1
      · exact ih k2 m1 m2
  exact h4 _ h3.2 hp hq

theorem k23_range : ∀ p ∈ edgesK23, p.1 < 5 ∧ p.2 < 5 := by decide

include h hnd hpr hnb in
theorem k23_deg {i : Nat} (hi : i < 5) : (rot (B i)).length = if i < 2 then 3 else 2 := by
  have key : ∀ i, i < 5 → (edgesK23.filter fun p => decide (p.1 = i)).length +
      (edgesK23.filter fun p => decide (p.2 = i)).length = if i < 2 then 3 else 2 := by decide
  rw [sub_deg_branch h hnd hpr hnb k23_range hi, key i hi]

include h hnd hpr hnb in
/-- The path through a middle vertex. -/
theorem long_path {i : Nat} (hi2 : 2 ≤ i) (hi : i < 5) : ∃ d : Dart rot, own g d = B 0 ∧ fin h.weak d = B 1 ∧
    0 < plen h.weak d ∧ ∀ w, w ∈ ins h.weak d ↔ w ∈ path (0, i) ∨ w = B i ∨ w ∈ path (i, 1) := by
  have hp : (0, i) ∈ edgesK23 := by
    have : ∀ i, i < 5 → 2 ≤ i → (0, i) ∈ edgesK23 := by decide
    exact this i hi hi2
  have hq : (i, 1) ∈ edgesK23 := by
    have : ∀ i, i < 5 → 2 ≤ i → (i, 1) ∈ edgesK23 := by decide
    exact this i hi hi2
  have hdg := fun j (hj : j < 5) => k23_deg h hnd hpr hnb hj
  obtain ⟨d, hd⟩ := follow h hnd hpr hnb k23_range hp
  obtain ⟨d', q1, q2, q3⟩ := follow_end h hnd hpr hnb k23_range hq (by rw [hdg 1 (by omega)]; decide)
  set m := (path (0, i)).length with hm
  have hin : ∀ t, (ht : t < m) → own g ((ph h.weak ^ (t + 1)) d) = (path (0, i))[t] := by
    intro t ht
    rw [hd _ (by omega), getElem!_pos _ (t + 1) (by simp; omega)]
    simp only [List.cons_append, List.getElem_cons_succ]
    rw [List.getElem_append_left ht]
  have hend : own g ((ph h.weak ^ (m + 1)) d) = B i := by
    rw [hd _ le_rfl, getElem!_pos _ _ (by simp; omega)]
    simp only [List.cons_append, List.getElem_cons_succ]
    rw [List.getElem_append_right le_rfl]
    simp [hm]
  have hbi : (rot (B i)).length = 2 := by rw [hdg i hi, if_neg (by omega)]
  -- the second part starts where the first one ends
  have hjoin : (ph h.weak ^ (m + 1)) d = d' := by
    have hT : Deg2 g ((ph h.weak ^ (m + 1)) d) := by unfold Deg2; rw [hend]; exact hbi
    rcases deg2_cases h.weak (y := d') hT (by rw [hend, q1]) with k | k
    · exact k.symm
    · exfalso
      have k2 : sg h.weak ((ph h.weak ^ (m + 1)) d) = al h.weak ((ph h.weak ^ m) d) := by
        have := (thread h.weak).turn (al h.weak ((ph h.weak ^ m) d)) ((deg2_pow h.weak d m).2 hT)
        rw [pow_succ', mul_apply]
        exact this
      rw [k2] at k
      have k3 : own g (al h.weak d') = own g ((ph h.weak ^ m) d) := by rw [k, al_al]
      have k4 : own g (al h.weak d') = own g ((ph h.weak ^ 1) d') := by
        rw [own_al]; exact nbr_pow h.weak d' 0
      -- a vertex of the first part
      have k5 : own g ((ph h.weak ^ m) d) = B 0 ∨ own g ((ph h.weak ^ m) d) ∈ path (0, i) := by
        by_cases hm0 : m = 0
        · left
          rw [hm0]
          exact hd 0 (by omega)
        · right
          obtain ⟨t, ht⟩ : ∃ t, m = t + 1 := ⟨m - 1, by omega⟩
          rw [ht, hin t (by omega)]
          exact List.getElem_mem _
      -- a vertex of the second part
      have k6 : own g ((ph h.weak ^ 1) d') = B 1 ∨ own g ((ph h.weak ^ 1) d') ∈ path (i, 1) := by
        by_cases hl : plen h.weak d' = 0
        · left
          rw [← q2, fin_eq, hl]
        · right
          rw [← q3, mem_ins]
          exact ⟨0, by omega, rfl⟩
      rw [← k3, k4] at k5
      rcases k5 with k5 | k5 <;> rcases k6 with k6 | k6
      · have := sub_inj hnd (by omega) (by omega) (k5.symm.trans k6)
        omega
      · rw [k5] at k6
        exact sub_apart hnd (by omega) (List.mem_flatMap.2 ⟨_, hq, k6⟩) rfl
      · rw [k6] at k5
        exact sub_apart hnd (by omega) (List.mem_flatMap.2 ⟨_, hp, k5⟩) rfl
      · refine path_apart hnd hp hq ?_ k5 k6
        intro hc
        have := congrArg Prod.fst hc
        simp at this
        omega
  have hpow : ∀ j, (ph h.weak ^ (m + 1 + j)) d = (ph h.weak ^ j) d' := by
    intro j
    rw [show m + 1 + j = j + (m + 1) by omega, pow_add, mul_apply, hjoin]
  have h2' : ¬ Deg2 g ((ph h.weak ^ (plen h.weak d' + 1)) d') := by
    intro hc
    unfold Deg2 at hc
    rw [← fin_eq, q2, hdg 1 (by omega)] at hc
    simp at hc
  have hl : plen h.weak d = m + 1 + plen h.weak d' := by
    refine len_eq ?_ ?_
    · intro t ht
      show Deg2 g ((ph h.weak ^ (t + 1)) d)
      unfold Deg2
      rcases Nat.lt_trichotomy t m with k | k | k
      · rw [hin t k]
        exact sub_deg_inner h hnd hpr hnb k23_range (List.mem_flatMap.2 ⟨_, hp, List.getElem_mem _⟩)
      · rw [k, hend]; exact hbi
      · obtain ⟨j, rfl⟩ : ∃ j, t = m + 1 + j := ⟨t - (m + 1), by omega⟩
        rw [show m + 1 + j + 1 = m + 1 + (j + 1) by omega, hpow]
        exact plen_min h.weak (by omega)
    · show ¬ Deg2 g ((ph h.weak ^ (m + 1 + plen h.weak d' + 1)) d)
      rw [show m + 1 + plen h.weak d' + 1 = m + 1 + (plen h.weak d' + 1) by omega, hpow]
      exact h2'
  refine ⟨d, hd 0 (by omega), ?_, by omega, ?_⟩
  · rw [fin_eq, hl, show m + 1 + plen h.weak d' + 1 = m + 1 + (plen h.weak d' + 1) by omega, hpow, ← fin_eq, q2]
  · intro w
    rw [mem_ins, hl]
    constructor
    · rintro ⟨t, ht, rfl⟩
      rcases Nat.lt_trichotomy t m with k | k | k
      · left; rw [hin t k]; exact List.getElem_mem _
      · right; left; rw [k, hend]
      · right; right
        obtain ⟨j, rfl⟩ : ∃ j, t = m + 1 + j := ⟨t - (m + 1), by omega⟩
        rw [show m + 1 + j + 1 = m + 1 + (j + 1) by omega, hpow, ← q3, mem_ins]
        exact ⟨j, by omega, rfl⟩
    · rintro (k | rfl | k)
      · obtain ⟨t, ht, rfl⟩ := List.mem_iff_getElem.1 k
        exact ⟨t, by omega, hin t ht⟩
      · exact ⟨m, by omega, hend⟩
      · rw [← q3, mem_ins] at k
        obtain ⟨j, hj, rfl⟩ := k
        exact ⟨m + 1 + j, by omega, by rw [show m + 1 + j + 1 = m + 1 + (j + 1) by omega, hpow]⟩

end

/-- A subdivision of K2,3. -/
theorem theta_of_sub {g : Graph} {rot : Nat → List Nat} (h : Inv g rot) (hs : IsSubdivision g 5 edgesK23) :
    ∃ u v, Theta h.weak u v ∧ (1 ≤ u ∧ u ≤ g.N) ∧ (1 ≤ v ∧ v ≤ g.N) ∧
      ∀ w, 1 ≤ w → w ≤ g.N → (rot w).length = 0 ∨ (rot w).length = 2 ∨ w = u ∨ w = v := by
  obtain ⟨B, path, hnd, hpr, hnb⟩ := hs
  have hdg := fun j (hj : j < 5) => k23_deg h hnd hpr hnb hj
  have hB := fun i (hi : i < 5) => hpr (B i) (List.mem_append_left _ (List.mem_map.2 ⟨i, List.mem_range.2 hi, rfl⟩))
  have hD := fun i (hi2 : 2 ≤ i) (hi : i < 5) => long_path h hnd hpr hnb hi2 hi
  obtain ⟨d2, a1, a2, a3, a4⟩ := hD 2 (by omega) (by omega)
  obtain ⟨d3, b1, b2, b3, b4⟩ := hD 3 (by omega) (by omega)
  obtain ⟨d4, c1, c2, c3, c4⟩ := hD 4 (by omega) (by omega)
  have hno : ∀ i j, i < 5 → 2 ≤ j → j < 5 → i ≠ j → ¬ (B i ∈ path (0, j) ∨ B i = B j ∨ B i ∈ path (j, 1)) := by
    intro i j hi hj2 hj hij hc
    have hp : (0, j) ∈ edgesK23 := by
      have : ∀ i, i < 5 → 2 ≤ i → (0, i) ∈ edgesK23 := by decide
      exact this j hj hj2
    have hq : (j, 1) ∈ edgesK23 := by
      have : ∀ i, i < 5 → 2 ≤ i → (i, 1) ∈ edgesK23 := by decide
      exact this j hj hj2
    rcases hc with k | k | k
    · exact sub_apart hnd hi (List.mem_flatMap.2 ⟨_, hp, k⟩) rfl
    · exact hij (sub_inj hnd hi hj k)
    · exact sub_apart hnd hi (List.mem_flatMap.2 ⟨_, hq, k⟩) rfl
  have hn : [d2, d3, d4].Nodup := by
    simp only [List.nodup_cons, List.mem_cons, List.not_mem_nil, or_false, not_or, List.nodup_nil, and_true,
      not_false_eq_true]
    refine ⟨⟨?_, ?_⟩, ?_⟩
    · rintro rfl
      exact hno 2 3 (by omega) (by omega) (by omega) (by omega) ((b4 _).1 ((a4 _).2 (.inr (.inl rfl))))
    · rintro rfl
      exact hno 2 4 (by omega) (by omega) (by omega) (by omega) ((c4 _).1 ((a4 _).2 (.inr (.inl rfl))))
    · rintro rfl
      exact hno 3 4 (by omega) (by omega) (by omega) (by omega) ((c4 _).1 ((b4 _).2 (.inr (.inl rfl))))
  have h0 : (rot (B 0)).length = 3 := by rw [hdg 0 (by omega)]; rfl
  have h1 : (rot (B 1)).length = 3 := by rw [hdg 1 (by omega)]; rfl
  have hall := all_darts h.weak (u := B 0) hn (by
    intro d hd
    simp only [List.mem_cons, List.not_mem_nil, or_false] at hd
    rcases hd with rfl | rfl | rfl
    · exact a1
    · exact b1
    · exact c1) (by rw [h0]; simp)
  have hcase : ∀ w, 1 ≤ w → w ≤ g.N → (rot w).length = 0 ∨ (∃ i, i < 5 ∧ w = B i) ∨ w ∈ edgesK23.flatMap path := by
    intro w w1 w2
    by_cases k1 : w ∈ edgesK23.flatMap path
    · exact .inr (.inr k1)
    · by_cases k2 : ∃ i, i < 5 ∧ w = B i
      · exact .inr (.inl k2)
      · exact .inl (sub_deg_else h hnb k23_range w1 w2 k1 fun i hi he => k2 ⟨i, hi, he⟩)
  refine ⟨B 0, B 1, ⟨?_, ⟨h0, h1⟩, ?_, ?_⟩, hB 0 (by omega), hB 1 (by omega), ?_⟩
  · intro hc
    have := sub_inj hnd (by omega) (by omega) hc
    omega
  · intro d hd
    have := hall d hd
    simp only [List.mem_cons, List.not_mem_nil, or_false] at this
    rcases this with rfl | rfl | rfl
    · exact ⟨a2, a3⟩
    · exact ⟨b2, b3⟩
    · exact ⟨c2, c3⟩
  · intro w w1 w2 w3
    rcases hcase w w1 w2 with k | ⟨i, hi, rfl⟩ | k
    · omega
    · rw [hdg i hi] at w3
      have hi2 : 2 ≤ i := by
        by_contra hc
        rw [if_pos (by omega)] at w3
        omega
      have : i = 2 ∨ i = 3 ∨ i = 4 := by omega
      rcases this with rfl | rfl | rfl
      · exact ⟨d2, a1, (a4 _).2 (.inr (.inl rfl))⟩
      · exact ⟨d3, b1, (b4 _).2 (.inr (.inl rfl))⟩
      · exact ⟨d4, c1, (c4 _).2 (.inr (.inl rfl))⟩
    · obtain ⟨p, hp, k⟩ := List.mem_flatMap.1 k
      have : p = (0, 2) ∨ p = (0, 3) ∨ p = (0, 4) ∨ p = (2, 1) ∨ p = (3, 1) ∨ p = (4, 1) := by
        simpa [edgesK23] using hp
      rcases this with rfl | rfl | rfl | rfl | rfl | rfl
      · exact ⟨d2, a1, (a4 _).2 (.inl k)⟩
      · exact ⟨d3, b1, (b4 _).2 (.inl k)⟩
      · exact ⟨d4, c1, (c4 _).2 (.inl k)⟩
      · exact ⟨d2, a1, (a4 _).2 (.inr (.inr k))⟩
      · exact ⟨d3, b1, (b4 _).2 (.inr (.inr k))⟩
      · exact ⟨d4, c1, (c4 _).2 (.inr (.inr k))⟩
  · intro w w1 w2
    rcases hcase w w1 w2 with k | ⟨i, hi, rfl⟩ | k
    · exact .inl k
    · have : i = 0 ∨ i = 1 ∨ 2 ≤ i := by omega
      rcases this with rfl | rfl | hi2
      · exact .inr (.inr (.inl rfl))
      · exact .inr (.inr (.inr rfl))
      · right; left
        rw [hdg i hi, if_neg (by omega)]
    · exact .inr (.inl (sub_deg_inner h hnd hpr hnb k23_range k))

section
variable {g : Graph} {rot : Nat → List Nat} (h : Inv g rot) (hprim : ∀ u e, e ∈ rot u → 1 ≤ u ∧ u ≤ g.N)
include h hprim

omit hprim in
theorem degOk_k23 (hs : IsSubdivision g 5 edgesK23) : DegOk rot 3 5 (List.range' 1 g.N) ∧
    ∃ u v, bigVerts rot (List.range' 1 g.N) = [u, v] ∧ Theta h.weak u v := by
  obtain ⟨u, v, ht, hu, hv, hd⟩ := theta_of_sub h hs
  have hdd := ht.deg
  have hp : (bigVerts rot (List.range' 1 g.N)).Perm [u, v] := by
    rw [List.perm_ext_iff_of_nodup bigVerts_nodup (by simpa using ht.ne)]
    intro w
    rw [mem_big]
    simp only [List.mem_cons, List.not_mem_nil, or_false]
    constructor
    · rintro ⟨w1, w2, w3⟩
      rcases hd w w1 w2 with k | k | k | k
      · omega
      · omega
      · exact .inl k
      · exact .inr k
    · rintro (rfl | rfl)
      · exact ⟨hu.1, hu.2, by omega⟩
      · exact ⟨hv.1, hv.2, by omega⟩
  refine ⟨⟨?_, by rw [hp.length_eq]; simp⟩, ?_⟩
  · intro w hw
    rw [List.mem_range'_1] at hw
    rcases hd w hw.1 (by omega) with k | k | rfl | rfl <;> omega
  · obtain ⟨a, b, hab⟩ := List.length_eq_two.1 hp.length_eq
    rw [hab] at hp
    have ha := hp.subset (List.mem_cons_self)
    simp only [List.mem_cons, List.not_mem_nil, or_false] at ha
    rcases ha with rfl | rfl
    · have := (List.perm_cons _).1 hp
      have hbv : b = v := by simpa using this
      subst hbv
      exact ⟨_, _, hab, ht⟩
    · have := (List.perm_cons _).1 (hp.trans (List.Perm.swap _ _ _))
      have hbv : b = u := by simpa using this
      subst hbv
      exact ⟨_, _, hab, ht.symm h.weak⟩

/-- The test for K2,3. -/
theorem k23_exact (hok : DegOk rot 3 5 (List.range' 1 g.N)) {F : Nat → Nat → Nat} (hF : ∀ w f, F w f / 2 = f / 2) :
    ∃ F' ok, testK23 (g.relabel F) (degCounts rot 3 (List.range' 1 g.N)) (imageOf rot 5 (List.range' 1 g.N)) =
        some (g.relabel F', ok) ∧ (∀ w f, F' w f / 2 = f / 2) ∧
      (ok = true → LoopFree g rot → IsSubdivision g 5 edgesK23) ∧ (IsSubdivision g 5 edgesK23 → ok = true) := by
  obtain ⟨F', ok, e, f1, f2, f3⟩ := testK23_spec h.weak hok hprim hF
  refine ⟨F', ok, e, f1, ?_, ?_⟩
  · intro hk hl
    obtain ⟨u, v, hb, ht⟩ := f2 hk hl
    refine theta_sound h ht hprim ?_
    intro w w1 w2
    obtain ⟨k1, k2⟩ := hok.1 w (List.mem_range'_1.2 ⟨w1, by omega⟩)
    by_cases k3 : 2 < (rot w).length
    · have := mem_big.2 ⟨w1, w2, k3⟩
      rw [hb] at this
      simp only [List.mem_cons, List.not_mem_nil, or_false] at this
      exact .inr (.inr this)
    · omega
  · intro hs
    obtain ⟨-, u, v, hb, ht⟩ := degOk_k23 h hs
    exact f3 u v hb ht

/-- `_CheckKuratowskiSubgraphIntegrity`. -/
theorem checkKuratowski_spec {F : Nat → Nat → Nat} (hF : ∀ w f, F w f / 2 = f / 2) :
    ∃ F' r, checkKuratowski (g.relabel F) = some (g.relabel F', r) ∧ (∀ w f, F' w f / 2 = f / 2) ∧ (r = .ok ∨ r = .notok) ∧
      (r = .ok ↔ IsSubdivision g 5 edgesK5 ∨ IsSubdivision g 6 edgesK33) := by
  have hN : (g.relabel F).N = g.N := rfl
  unfold checkKuratowski
  obtain ⟨s1, s2⟩ := imageVertices_spec (h.weak.relabel F) 4 6
  rw [hN] at s1 s2
  by_cases hok : DegOk rot 4 6 (List.range' 1 g.N)
  · rw [s1 hok]
    simp only [Option.bind_eq_bind, Option.bind_some]
    obtain ⟨F1, ok, e1, f1, f2⟩ := complete_exact h (n := 5) (M := 6) (D := 4) (by omega) (by omega) (by omega) complete5
      hprim hok hF
    rw [e1]
    simp only [Option.bind_some]
    cases ok with
    | true => exact ⟨F1, .ok, rfl, f1, .inl rfl, fun _ => .inl (f2.1 rfl), fun _ => rfl⟩
    | false =>
      simp only [Bool.false_eq_true, if_false]
      obtain ⟨F2, ok, e2, g1, g2⟩ := k33_exact h hprim hok f1
      rw [e2]
      simp only [Option.bind_some]
      refine ⟨F2, _, rfl, g1, ?_, ?_⟩
      · cases ok
        · exact .inr rfl
        · exact .inl rfl
      · rw [← f2, ← g2]
        cases ok <;> simp
  · rw [s2 hok]
    refine ⟨F, .notok, rfl, hF, .inr rfl, fun hc => (by cases hc), ?_⟩
    rintro (hs | hs)
    · exact absurd (degOk_complete h (by omega) complete5 (by omega) (by omega) hs) hok
    · exact absurd (degOk_k33 h hs) hok

/-- `_CheckOuterplanarObstructionIntegrity`. -/
theorem checkOuterplanar_spec {F : Nat → Nat → Nat} (hF : ∀ w f, F w f / 2 = f / 2) :
    ∃ F' r, checkOuterplanar (g.relabel F) = some (g.relabel F', r) ∧ (∀ w f, F' w f / 2 = f / 2) ∧
      (r = .ok ∨ r = .notok) ∧
      (r = .ok → LoopFree g rot → IsSubdivision g 4 edgesK4 ∨ IsSubdivision g 5 edgesK23) ∧
      (IsSubdivision g 4 edgesK4 ∨ IsSubdivision g 5 edgesK23 → r = .ok) := by
  have hN : (g.relabel F).N = g.N := rfl
  unfold checkOuterplanar
  obtain ⟨s1, s2⟩ := imageVertices_spec (h.weak.relabel F) 3 5
  rw [hN] at s1 s2
  by_cases hok : DegOk rot 3 5 (List.range' 1 g.N)
  · rw [s1 hok]
    simp only [Option.bind_eq_bind, Option.bind_some]
    obtain ⟨F1, ok, e1, f1, f2⟩ := complete_exact h (n := 4) (M := 5) (D := 3) (by omega) (by omega) (by omega) complete4
      hprim hok hF
    rw [e1]
    simp only [Option.bind_some]
    cases ok with
    | true => exact ⟨F1, .ok, rfl, f1, .inl rfl, fun _ _ => .inl (f2.1 rfl), fun _ => rfl⟩
    | false =>
      simp only [Bool.false_eq_true, if_false]
      obtain ⟨F2, ok, e2, g1, g2, g3⟩ := k23_exact h hprim hok f1
      rw [e2]
      simp only [Option.bind_some]
      refine ⟨F2, _, rfl, g1, ?_, ?_, ?_⟩
      · cases ok
        · exact .inr rfl
        · exact .inl rfl
      · cases ok with
        | false => intro hc; simp at hc
        | true => intro _ hl; exact .inr (g2 rfl hl)
      · rintro (hs | hs)
        · have := f2.2 hs; cases this
        · rw [g3 hs]; rfl
  · rw [s2 hok]
    refine ⟨F, .notok, rfl, hF, .inr rfl, fun hc => (by cases hc), ?_⟩
    rintro (hs | hs)
    · exact absurd (degOk_complete h (by omega) complete4 (by omega) (by omega) hs) hok
    · exact absurd (degOk_k23 h hs).1 hok

end
end Test
end Verif
