import Verif.Embed.Reflect

/-
The outer face of a component passes every vertex at most once, as long as no component has just been merged into it.
-/
namespace Verif.Embed
open Equiv Equiv.Perm Verif.Map Function

set_option linter.unusedSectionVars false

variable {D : Type} [Finite D] [DecidableEq D] {N : Nat} {par : Nat → Nat} {α : Perm D} {G : Gh D} {A : List D}

/-- The outer face of component `c` starts with the arcs `A`; from there on it leaves every vertex by its first arc. -/
def Gh.Rim (G : Gh D) (α : Perm D) (N c : Nat) (A : List D) : Prop :=
  ∃ r l T, G.L (c + N) = r :: l ∧ Orbit (G.σ * α) (r :: (A ++ T)) ∧ (r :: (A ++ T)).Nodup ∧
    List.Sublist ((G.X c).map G.hd) (T.map some) ∧ ∀ d ∈ T, ∃ x, x ≤ N ∧ G.hd x = some d

/-- The outer face of component `c` leaves every vertex by its first arc. -/
def Gh.Tight (G : Gh D) (α : Perm D) (N c : Nat) : Prop := G.Rim α N c []

theorem Gh.Rim.drop {c k : Nat} {Q : List Nat} (hQ : List.Sublist Q (G.X c)) (h : G.Rim α N k A) : (G.drop c Q).Rim α N k A := by
  obtain ⟨r, l, T, h1, h2, h3, h4, h5⟩ := h
  refine ⟨r, l, T, h1, h2, h3, ?_, h5⟩
  by_cases hkc : k = c
  · subst hkc
    have : (G.drop k Q).X k = Q := update_self _ _ _
    rw [this]
    exact (hQ.map _).trans h4
  · have : (G.drop c Q).X k = G.X k := update_of_ne hkc _ _
    rw [this]; exact h4

theorem rim_mem {p : D} {T : List D} {Y : List Nat} (h : List.Sublist (Y.map G.hd) (T.map some)) {Z : Nat} (hZ : Z ∈ Y) (hp : G.hd Z = some p) : p ∈ T := by
  have : G.hd Z ∈ T.map some := h.subset (List.mem_map_of_mem hZ)
  rw [hp] at this
  simpa using this

section Merge
variable {b Z c : Nat} {P Q : List Nat}

theorem merge_hd (hZ1 : 1 ≤ c) (hLZ : G.L Z ≠ []) (y : Nat) (hy : y ≠ c + N) : (G.merge N b Z c Q).hd y = G.hd y := by
  unfold Gh.hd
  rw [merge_L, if_neg hy]
  split
  · next e =>
    subst e
    cases h : G.L y with
    | nil => exact absurd h hLZ
    | cons a l => rfl
  · rfl

/-- Merging a component into another one. -/
theorem Gh.Rim.merge (hα : ∀ d, α (α d) = d) (hpar : ∀ c, 1 ≤ c → c ≤ N → par c < c) (h : Good N par α G)
    (hb : G.Live N b) (hc : G.Live N c) (hZc : par c = Z) (hX : G.X b = P ++ Z :: Q) {A' : List D} (hRb : G.Rim α N b A) (hRc : G.Rim α N c A') :
    ∃ A'', (G.merge N b Z c Q).Rim α N b A'' := by
  obtain ⟨hZ1, hZN, hZb⟩ := h.bd b hb Z (by rw [hX]; simp)
  obtain ⟨hcN, hc0, hcr⟩ := h.root c hc
  obtain ⟨hbN, hb0, hbr⟩ := h.root b hb
  have hZc' : Z < c := hZc ▸ hpar c hc.1 hcN
  have hbZ : b ≤ Z := hZb ▸ h.cp_le hpar hZ1 hZN
  have hbc : b ≠ c := by omega
  obtain ⟨p, z, hLZ⟩ := hd_some h hb (Z := Z) (by rw [hX]; simp)
  obtain ⟨q, ql, Tc, q1, q2, q3, q4, q5⟩ := hRc
  obtain ⟨r, l, T, r1, r2, r3, r4, r5⟩ := hRb
  have hcl := hc.1
  have hbl := hb.1
  have hqR : q ∈ G.L (c + N) := by rw [q1]; simp
  have hrb : r ∈ G.L (b + N) := by rw [r1]; simp
  have hhZ : G.hd Z = some p := by unfold Gh.hd; rw [hLZ]; rfl
  have hhc : G.hd (c + N) = some q := by unfold Gh.hd; rw [q1]; rfl
  have hφ : (G.merge N b Z c Q).σ * α = swap p q * (G.σ * α) := by
    have : (G.merge N b Z c Q).σ = swap p q * G.σ := by
      show (match G.hd Z, G.hd (c + N) with
      | some p, some q => swap p q * G.σ
      | _, _ => G.σ) = _
      rw [hhZ, hhc]
    rw [this, mul_assoc]
  have hhd := merge_hd (G := G) (N := N) (b := b) (Z := Z) (Q := Q) hc.1 (by rw [hLZ]; simp)
  obtain ⟨T1, C, rfl⟩ := List.append_of_mem (rim_mem r4 (by rw [hX]; simp) hhZ)
  rw [← List.append_assoc] at r2 r3
  have hdj : ∀ d ∈ r :: (A ++ T1 ++ p :: C), d ∉ q :: (A' ++ Tc) := by
    intro d hd hd'
    have e1 := h.face_lab hα r2 (by simp) hrb hd
    have e2 := h.face_lab hα q2 (by simp) hqR hd'
    rw [e1] at e2
    have := Set.singleton_injective e2
    rw [hbr, hcr] at this
    exact hbc this
  have hnd : (p :: (C ++ r :: (A ++ T1)) ++ q :: (A' ++ Tc)).Nodup := by
    rw [List.nodup_append]
    have hpm : List.Perm (p :: (C ++ r :: (A ++ T1))) (r :: (A ++ T1 ++ p :: C)) := by
      have h1 : List.Perm ((p :: C) ++ (r :: (A ++ T1))) ((r :: (A ++ T1)) ++ (p :: C)) := List.perm_append_comm
      exact h1
    refine ⟨(hpm.nodup_iff).2 r3, q3, ?_⟩
    rintro a ha _ hb' rfl
    exact hdj a (hpm.subset ha) hb'
  have o1 : Orbit (G.σ * α) ((r :: (A ++ T1)) ++ (p :: C)) := r2
  have o2 : Orbit (G.σ * α) (p :: (C ++ r :: (A ++ T1))) := o1.comm
  have o3 := o2.glue q2 hnd
  have e3 : p :: (C ++ r :: (A ++ T1)) ++ q :: (A' ++ Tc) = (p :: C) ++ (r :: (A ++ T1) ++ q :: (A' ++ Tc)) := by simp
  rw [e3] at o3 hnd
  have o4 := o3.comm
  have e4 : r :: (A ++ T1) ++ q :: (A' ++ Tc) ++ p :: C = r :: ((A ++ T1 ++ q :: A') ++ (Tc ++ p :: C)) := by simp
  rw [e4] at o4
  refine ⟨A ++ T1 ++ q :: A', r, l, Tc ++ p :: C, ?_, ?_, ?_, ?_, ?_⟩
  · rw [merge_L, if_neg (by omega), if_neg (by omega)]; exact r1
  · rw [hφ]; exact o4
  · rw [← e4]
    exact (List.perm_append_comm.nodup_iff).1 hnd
  · have hX' : (G.merge N b Z c Q).X b = G.X c ++ Z :: Q := update_self _ _ _
    rw [hX']
    have hm : ∀ Y : List Nat, (∀ y ∈ Y, y ≠ c + N) → Y.map (G.merge N b Z c Q).hd = Y.map G.hd :=
      fun Y hY => List.map_congr_left fun y hy => hhd y (hY y hy)
    have hXc : ∀ y ∈ G.X c, y ≠ c + N := fun y hy => by have := h.bd c hc y hy; omega
    have hXb : ∀ y ∈ G.X b, y ≠ c + N := fun y hy => by have := h.bd b hb y hy; omega
    rw [hm _ (by
      intro y hy
      rcases List.mem_append.1 hy with hy | hy
      · exact hXc y hy
      · exact hXb y (by rw [hX]; simp at hy ⊢; tauto))]
    rw [hX, List.map_append, List.map_cons, List.map_append, List.map_cons, hhZ] at r4
    have hnA : some p ∉ T1.map some ∧ some p ∉ C.map some := by
      have r6 := (List.nodup_cons.1 r3).2
      rw [List.append_assoc, List.nodup_append] at r6
      have r7 := r6.2.1
      rw [List.nodup_append] at r7
      obtain ⟨_, h1, h2⟩ := r7
      constructor
      · intro hh
        simp at hh
        exact h2 p hh p (by simp) rfl
      · intro hh
        simp at hh
        exact (List.nodup_cons.1 h1).1 hh
    obtain ⟨_, s2⟩ := sublist_split r4 hnA.1 hnA.2
    rw [List.map_append, List.map_cons, hhZ, List.map_append, List.map_cons]
    exact List.Sublist.append q4 (s2.cons_cons _)
  · intro d hd
    have : ∃ x, x ≤ N ∧ G.hd x = some d := by
      rcases List.mem_append.1 hd with hd | hd
      · exact q5 d hd
      · exact r5 d (by simp at hd ⊢; tauto)
    obtain ⟨x, h1, h2⟩ := this
    exact ⟨x, h1, by rw [hhd x (by omega)]; exact h2⟩

/-- The other components. -/
theorem Gh.Rim.merge_ne (hα : ∀ d, α (α d) = d) (h : Good N par α G)
    (hb : G.Live N b) (hc : G.Live N c) (hX : G.X b = P ++ Z :: Q) {k : Nat} (hk : G.Live N k) (hkb : k ≠ b) (hkc : k ≠ c) (hR : G.Rim α N k A) :
    (G.merge N b Z c Q).Rim α N k A := by
  obtain ⟨hZ1, hZN, hZb⟩ := h.bd b hb Z (by rw [hX]; simp)
  obtain ⟨hcN, hc0, hcr⟩ := h.root c hc
  obtain ⟨p, z, hLZ⟩ := hd_some h hb (Z := Z) (by rw [hX]; simp)
  obtain ⟨q, ql, Tc, q1, -⟩ := h.face c hc
  have hcl := hc.1
  have hkl := hk.1
  have hpZ : p ∈ G.L Z := by rw [hLZ]; simp
  have hqR : q ∈ G.L (c + N) := by rw [q1]; simp
  have hhZ : G.hd Z = some p := by unfold Gh.hd; rw [hLZ]; rfl
  have hhc : G.hd (c + N) = some q := by unfold Gh.hd; rw [q1]; rfl
  have hφ : (G.merge N b Z c Q).σ * α = swap p q * (G.σ * α) := by
    have : (G.merge N b Z c Q).σ = swap p q * G.σ := by
      show (match G.hd Z, G.hd (c + N) with
      | some p, some q => swap p q * G.σ
      | _, _ => G.σ) = _
      rw [hhZ, hhc]
    rw [this, mul_assoc]
  have hhd := merge_hd (G := G) (N := N) (b := b) (Z := Z) (Q := Q) hc.1 (by rw [hLZ]; simp)
  obtain ⟨r', l', T', t1, t2, t3, t4, t5⟩ := hR
  have hr' : r' ∈ G.L (k + N) := by rw [t1]; simp
  have hkr := (h.root k hk).2.2
  refine ⟨r', l', T', ?_, ?_, t3, ?_, ?_⟩
  · rw [merge_L, if_neg (by omega), if_neg (by omega)]; exact t1
  · rw [hφ]
    refine t2.off ?_ ?_
    · exact h.face_not_mem hα t2 (by simp) hr' hpZ (by rw [hZb, hkr]; omega)
    · exact h.face_not_mem hα t2 (by simp) hr' hqR (by rw [hcr, hkr]; omega)
  · have hX' : (G.merge N b Z c Q).X k = G.X k := update_of_ne hkb _ _
    rw [hX']
    rwa [List.map_congr_left fun y hy => hhd y (by have := h.bd k hk y hy; omega)]
  · intro d hd
    obtain ⟨x, h1, h2⟩ := t5 d hd
    exact ⟨x, h1, by rw [hhd x (by omega)]; exact h2⟩

end Merge

section Add
variable {c W : Nat} {P Q : List Nat} {d : D}

theorem add_hd (hWN : W ≤ N) (hc : 1 ≤ c) (hLW : G.L W ≠ []) (y : Nat) (hy : y ≠ c + N) : (G.addEdge α N c W Q d).hd y = G.hd y := by
  unfold Gh.hd
  rw [add_L hWN hc, if_neg hy]
  split
  · next e =>
    subst e
    cases h : G.L y with
    | nil => exact absurd h hLW
    | cons a l => rfl
  · rfl

/-- An edge closes the outer face. -/
theorem Gh.Rim.addEdge (hα : ∀ d, α (α d) = d) (h : Good N par α G) (hc : G.Live N c) (hX : G.X c = P ++ W :: Q)
    (hne : α d ≠ d) (hd : ∀ x, d ∉ G.L x) (hd' : ∀ x, α d ∉ G.L x) (hR : G.Rim α N c A) : (G.addEdge α N c W Q d).Tight α N c := by
  obtain ⟨hW1, hWN, hWc⟩ := h.bd c hc W (by rw [hX]; simp)
  obtain ⟨hcN, hc0, hcr⟩ := h.root c hc
  obtain ⟨w, wl, hLW⟩ := hd_some h hc (Z := W) (by rw [hX]; simp)
  obtain ⟨r, l, T, r1, r2, r3, r4, r5⟩ := hR
  have hc1 := hc.1
  have hrc : r ∈ G.L (c + N) := by rw [r1]; simp
  have hhW : G.hd W = some w := by unfold Gh.hd; rw [hLW]; rfl
  have hhc : G.hd (c + N) = some r := by unfold Gh.hd; rw [r1]; rfl
  have hφ : (G.addEdge α N c W Q d).σ * α = swap w (α d) * (swap d r * (G.σ * α)) := by
    have : (G.addEdge α N c W Q d).σ = swap w (α d) * (swap d r * G.σ) := by
      show (match G.hd (c + N), G.hd W with
      | some r, some w => swap w (α d) * (swap d r * G.σ)
      | _, _ => G.σ) = _
      rw [hhW, hhc]
    rw [this, mul_assoc, mul_assoc]
  have hL := add_L (G := G) (α := α) (Q := Q) (d := d) hWN hc1
  have hhd := add_hd (G := G) (α := α) (Q := Q) (d := d) hWN hc1 (by rw [hLW]; simp)
  obtain ⟨T1, C, rfl⟩ := List.append_of_mem (rim_mem r4 (by rw [hX]; simp) hhW)
  rw [← List.append_assoc] at r2 r3
  have hdT : d ∉ r :: (A ++ T1 ++ w :: C) := h.face_fresh hα r2 (by simp) hrc hd
  have hdT' : α d ∉ r :: (A ++ T1 ++ w :: C) := h.face_fresh hα r2 (by simp) hrc hd'
  have o0 : Orbit (G.σ * α) (d :: [α d]) := by
    rw [orbit_cons]
    simp [h.core.out d hd, h.core.out (α d) hd', hα]
  have n0 : (d :: [α d] ++ r :: (A ++ T1 ++ w :: C)).Nodup := by
    rw [List.nodup_append]
    refine ⟨by simp [Ne.symm hne], r3, ?_⟩
    rintro a ha _ hb rfl
    simp only [List.mem_cons, List.not_mem_nil, or_false] at ha
    rcases ha with rfl | rfl
    · exact hdT hb
    · exact hdT' hb
  have o1 := o0.glue r2 n0
  have e2 : d :: [α d] ++ r :: (A ++ T1 ++ w :: C) = ([d] ++ (α d :: r :: (A ++ T1))) ++ (w :: C) := by simp
  rw [e2] at o1 n0
  have o3 := o1.comm
  have e3 : (w :: C) ++ ([d] ++ (α d :: r :: (A ++ T1))) = w :: (C ++ [d]) ++ α d :: (r :: (A ++ T1)) := by simp
  have n3 := (List.perm_append_comm.nodup_iff).1 n0
  rw [e3] at o3 n3
  obtain ⟨o4, o5⟩ := o3.split n3
  have o6 : Orbit (swap w (α d) * (swap d r * (G.σ * α))) ((w :: C) ++ [d]) := o4
  have o7 : Orbit (swap w (α d) * (swap d r * (G.σ * α))) (d :: (w :: C)) := o6.comm
  have n7 : (d :: (w :: C)).Nodup := by
    have : (w :: (C ++ [d])).Nodup := (List.nodup_append.1 n3).1
    have h2 : ((w :: C) ++ [d]).Nodup := this
    exact (List.perm_append_comm.nodup_iff).1 h2
  refine ⟨d, G.L (c + N), w :: C, ?_, ?_, n7, ?_, ?_⟩
  · rw [hL, if_neg (by omega), if_pos rfl]
  · rw [hφ]; exact o7
  · have hX' : (G.addEdge α N c W Q d).X c = W :: Q := update_self _ _ _
    rw [hX', List.map_congr_left fun y hy => hhd y (by
      have := h.bd c hc y (by rw [hX]; exact List.mem_append_right _ hy); omega)]
    rw [hX, List.map_append, List.map_cons, List.map_append, List.map_cons, hhW] at r4
    have hnA : some w ∉ T1.map some ∧ some w ∉ C.map some := by
      have r6 := (List.nodup_cons.1 r3).2
      rw [List.append_assoc, List.nodup_append] at r6
      have r7 := r6.2.1
      rw [List.nodup_append] at r7
      obtain ⟨_, h1, h2⟩ := r7
      constructor
      · intro hh
        simp at hh
        exact h2 w hh w (by simp) rfl
      · intro hh
        simp at hh
        exact (List.nodup_cons.1 h1).1 hh
    obtain ⟨_, s2⟩ := sublist_split r4 hnA.1 hnA.2
    rw [List.map_cons, List.map_cons, hhW]
    exact s2.cons_cons _
  · intro e he
    obtain ⟨x, h1, h2⟩ := r5 e (by simp at he ⊢; tauto)
    exact ⟨x, h1, by rw [hhd x (by omega)]; exact h2⟩

theorem Gh.Rim.addEdge_ne (hα : ∀ d, α (α d) = d) (h : Good N par α G) (hc : G.Live N c) (hX : G.X c = P ++ W :: Q)
    (hd : ∀ x, d ∉ G.L x) (hd' : ∀ x, α d ∉ G.L x) {k : Nat} (hk : G.Live N k) (hkc : k ≠ c) (hR : G.Rim α N k A) :
    (G.addEdge α N c W Q d).Rim α N k A := by
  obtain ⟨hW1, hWN, hWc⟩ := h.bd c hc W (by rw [hX]; simp)
  obtain ⟨hcN, hc0, hcr⟩ := h.root c hc
  obtain ⟨w, wl, hLW⟩ := hd_some h hc (Z := W) (by rw [hX]; simp)
  obtain ⟨r, l, T, r1, -⟩ := h.face c hc
  have hc1 := hc.1
  have hwW : w ∈ G.L W := by rw [hLW]; simp
  have hrc : r ∈ G.L (c + N) := by rw [r1]; simp
  have hhW : G.hd W = some w := by unfold Gh.hd; rw [hLW]; rfl
  have hhc : G.hd (c + N) = some r := by unfold Gh.hd; rw [r1]; rfl
  have hφ : (G.addEdge α N c W Q d).σ * α = swap w (α d) * (swap d r * (G.σ * α)) := by
    have : (G.addEdge α N c W Q d).σ = swap w (α d) * (swap d r * G.σ) := by
      show (match G.hd (c + N), G.hd W with
      | some r, some w => swap w (α d) * (swap d r * G.σ)
      | _, _ => G.σ) = _
      rw [hhW, hhc]
    rw [this, mul_assoc, mul_assoc]
  have hL := add_L (G := G) (α := α) (Q := Q) (d := d) hWN hc1
  have hhd := add_hd (G := G) (α := α) (Q := Q) (d := d) hWN hc1 (by rw [hLW]; simp)
  obtain ⟨r', l', T', t1, t2, t3, t4, t5⟩ := hR
  have hr' : r' ∈ G.L (k + N) := by rw [t1]; simp
  have hkr := (h.root k hk).2.2
  have hk1 := hk.1
  refine ⟨r', l', T', ?_, ?_, t3, ?_, ?_⟩
  · rw [hL, if_neg (by omega), if_neg (by omega)]; exact t1
  · rw [hφ]
    refine (t2.off ?_ ?_).off ?_ ?_
    · exact h.face_fresh hα t2 (by simp) hr' hd
    · exact h.face_not_mem hα t2 (by simp) hr' hrc (by rw [hcr, hkr]; omega)
    · exact h.face_not_mem hα t2 (by simp) hr' hwW (by rw [hWc, hkr]; omega)
    · exact h.face_fresh hα t2 (by simp) hr' hd'
  · have hX' : (G.addEdge α N c W Q d).X k = G.X k := update_of_ne hkc _ _
    rw [hX']
    rwa [List.map_congr_left fun y hy => hhd y (by have := h.bd k hk y hy; omega)]
  · intro e he
    obtain ⟨x, h1, h2⟩ := t5 e he
    exact ⟨x, h1, by rw [hhd x (by omega)]; exact h2⟩

end Add

/-- Reflecting a component. -/
theorem Gh.Tight.reflect (hα : ∀ d, α (α d) = d) (h : Good N par α G) {c k : Nat} (hk : G.Live N k) (hR : G.Tight α N k) : (G.reflect c).Tight α N k := by
  have hrot := h.part_rot (c := c)
  have hσ : (G.reflect c).σ = Map.mirror G.σ (G.part c) hrot := dif_pos hrot
  have hai : ∀ x, (α⁻¹ : Perm D) x = α x := fun x => by rw [inv_eq_iff_eq, hα]
  obtain ⟨r, l, T, t1, t2, t3, t4, t5⟩ := hR
  rw [List.nil_append] at t2 t3
  have hrL : r ∈ G.L (k + N) := by rw [t1]; simp
  have hkr := (h.root k hk).2.2
  by_cases hkc : k = c
  · subst hkc
    have hS : ∀ d ∈ r :: T, d ∈ G.part k := by
      intro d hd
      rw [part_iff, h.face_lab hα t2 (by simp) hrL hd, hkr]; rfl
    have hrev : (G.L (k + N)).reverse.head? = some ((G.σ⁻¹ : Perm D) r) := by
      rw [orbit_head (h.core.orbit (k + N)), t1]; rfl
    have hL' : (G.reflect k).L (k + N) = (G.L (k + N)).reverse := by rw [reflect_L, if_pos hkr]
    obtain ⟨l', hl'⟩ : ∃ l', (G.L (k + N)).reverse = (G.σ⁻¹ : Perm D) r :: l' := by
      cases hh : (G.L (k + N)).reverse with
      | nil => rw [hh] at hrev; simp at hrev
      | cons a b => rw [hh] at hrev; simp at hrev; exact ⟨b, by rw [hrev]; rfl⟩
    have o1 : Orbit ((G.σ * α)⁻¹ : Perm D) (T.reverse ++ [r]) := by
      have := orbit_inv t2
      rwa [List.reverse_cons] at this
    have o2 : Orbit ((G.σ * α)⁻¹ : Perm D) ([r] ++ T.reverse) := o1.comm
    have o3 : Orbit ((G.reflect k).σ * α) (([r] ++ T.reverse).map (G.σ⁻¹ : Perm D)) := by
      unfold Orbit at *
      rw [← List.map_rotate, ← o2, List.map_map, List.map_map]
      refine List.map_congr_left fun d hd => ?_
      have hd' : d ∈ G.part k := hS d (by simp at hd ⊢; tauto)
      have hd2 : α ((G.σ⁻¹ : Perm D) d) ∈ G.part k := by
        rw [h.part_pair hα, ← hrot, p_pinv]; exact hd'
      show (G.reflect k).σ (α ((G.σ⁻¹ : Perm D) d)) = (G.σ⁻¹ : Perm D) ((G.σ * α)⁻¹ d)
      rw [hσ, mirror_in hrot hd2, mul_inv_rev, mul_apply, hai]
    have hhd : ∀ y, G.cp y = k → (G.reflect k).hd y = (G.hd y).map (G.σ⁻¹ : Perm D) := by
      intro y hy
      unfold Gh.hd
      rw [reflect_L, if_pos hy, orbit_head (h.core.orbit y)]
    refine ⟨(G.σ⁻¹ : Perm D) r, l', T.reverse.map (G.σ⁻¹ : Perm D), by rw [hL', hl'], ?_, ?_, ?_, ?_⟩
    · simpa using o3
    · have : (([r] ++ T.reverse).map (G.σ⁻¹ : Perm D)).Nodup := by
        refine (List.nodup_map_iff (G.σ⁻¹ : Perm D).injective).2 ?_
        have hp : List.Perm ([r] ++ T.reverse) (r :: T) := (List.reverse_perm T).cons r
        exact hp.nodup_iff.2 t3
      simpa using this
    · have hX' : (G.reflect k).X k = (G.X k).reverse := update_self _ _ _
      rw [hX', List.map_congr_left fun y hy => hhd y (h.bd k hk y (by simpa using hy)).2.2]
      have e1 : (G.X k).reverse.map (fun y => (G.hd y).map (G.σ⁻¹ : Perm D)) =
          (((G.X k).map G.hd).reverse).map (Option.map (G.σ⁻¹ : Perm D)) := by
        rw [← List.map_reverse, List.map_map]; rfl
      have e2 : (T.reverse.map (G.σ⁻¹ : Perm D)).map some = ((T.map some).reverse).map (Option.map (G.σ⁻¹ : Perm D)) := by
        rw [← List.map_reverse, List.map_map, List.map_map]; rfl
      rw [e1, e2]
      exact (List.Sublist.reverse t4).map _
    · intro d hd
      obtain ⟨d0, hd0, rfl⟩ := List.mem_map.1 hd
      have hd0 : d0 ∈ T := by simpa using hd0
      obtain ⟨x, h1, h2⟩ := t5 d0 hd0
      have hx : G.cp x = k := by
        have := h.face_lab hα t2 (by simp) hrL (List.mem_cons_of_mem _ hd0)
        rw [lab_eq h.core.disj (hd_mem h2), hkr] at this
        exact Set.singleton_injective this
      exact ⟨x, h1, by rw [hhd x hx, h2]; rfl⟩
  · have hS : ∀ d ∈ r :: T, d ∉ G.part c := by
      intro d hd hh
      rw [part_iff, h.face_lab hα t2 (by simp) hrL hd, hkr] at hh
      exact hkc hh.symm
    have hhd : ∀ y, G.cp y = k → (G.reflect c).hd y = G.hd y := by
      intro y hy
      unfold Gh.hd
      rw [reflect_L, if_neg (by rw [hy]; exact hkc)]
    refine ⟨r, l, T, by rw [reflect_L, if_neg (by rw [hkr]; exact hkc)]; exact t1, ?_, t3, ?_, ?_⟩
    · refine orbit_congr t2 fun d hd => ?_
      show (G.reflect c).σ (α d) = G.σ (α d)
      rw [hσ, mirror_out hrot]
      rw [h.part_pair hα]; exact hS d hd
    · have hX' : (G.reflect c).X k = G.X k := update_of_ne hkc _ _
      rw [hX']
      rwa [List.map_congr_left fun y hy => hhd y (h.bd k hk y hy).2.2]
    · intro d hd
      obtain ⟨x, h1, h2⟩ := t5 d hd
      have hx : G.cp x = k := by
        have := h.face_lab hα t2 (by simp) hrL (List.mem_cons_of_mem _ hd)
        rw [lab_eq h.core.disj (hd_mem h2), hkr] at this
        exact Set.singleton_injective this
      exact ⟨x, h1, by rw [hhd x hx]; exact h2⟩

end Verif.Embed
