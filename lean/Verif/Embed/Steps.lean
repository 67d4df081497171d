import Verif.Embed.Ideal

/-
Steps of the embedder on the ideal state, each keeping it good: merging a component into the vertex its root stands for,
adding an edge inside the outer face, reflecting a component, and unlinking vertices from the outer face.
-/
namespace Verif.Embed
open Equiv Equiv.Perm Verif.Map Function
open Verif.Props (AncEq)

set_option linter.unusedSectionVars false

variable {D : Type} [Finite D] [DecidableEq D] {N : Nat} {par : Nat → Nat} {α : Perm D} {G : Gh D}

/-- Component `c` joins component `b` at `Z`, the vertex its root stands for; `Q` is what follows `Z` on the outer face. -/
def Gh.merge (G : Gh D) (N b Z c : Nat) (Q : List Nat) : Gh D where
  σ := match G.hd Z, G.hd (c + N) with
    | some p, some q => swap p q * G.σ
    | _, _ => G.σ
  L := update (update G.L (c + N) []) Z (G.L Z ++ G.L (c + N))
  o := G.o
  cp := fun y => if G.cp y = c then b else G.cp y
  X := update G.X b (G.X c ++ Z :: Q)

/-- Edge `d` from the root of `c` to `W`; `Q` is what follows `W` on the outer face. -/
def Gh.addEdge (G : Gh D) (α : Perm D) (N c W : Nat) (Q : List Nat) (d : D) : Gh D where
  σ := match G.hd (c + N), G.hd W with
    | some r, some w => swap w (α d) * (swap d r * G.σ)
    | _, _ => G.σ
  L := update (update G.L (c + N) (d :: G.L (c + N))) W (G.L W ++ [α d])
  o := G.o
  cp := G.cp
  X := update G.X c (W :: Q)

/-- Fewer vertices stay linked. -/
def Gh.drop (G : Gh D) (c : Nat) (Q : List Nat) : Gh D := { G with X := update G.X c Q }

theorem hd_some (h : Good N par α G) {c Z : Nat} (hc : G.Live N c) (hZ : Z ∈ G.X c) : ∃ p z, G.L Z = p :: z := by
  obtain ⟨r, l, T, h1, h3, h4, h5⟩ := h.face c hc
  have : G.hd Z ∈ T.map some := h5.subset (List.mem_map_of_mem hZ)
  obtain ⟨p, _, hp⟩ := List.mem_map.1 this
  unfold Gh.hd at hp
  cases hL : G.L Z with
  | nil => rw [hL] at hp; simp at hp
  | cons p z => exact ⟨p, z, rfl⟩

theorem Good.drop (h : Good N par α G) {c : Nat} {Q : List Nat} (hQ : List.Sublist Q (G.X c)) :
    Good N par α (G.drop c Q) := by
  refine ⟨h.core, h.pair, h.dom, h.root, h.own, h.joined, h.top, ?_, ?_⟩
  · intro k hk
    obtain ⟨r, l, T, h1, h3, h4, h5⟩ := h.face k hk
    refine ⟨r, l, T, h1, h3, h4, ?_⟩
    by_cases hkc : k = c
    · subst hkc
      have : (G.drop k Q).X k = Q := update_self _ _ _
      rw [this]
      exact (hQ.map _).trans h5
    · have : (G.drop c Q).X k = G.X k := update_of_ne hkc _ _
      rw [this]; exact h5
  · intro k hk x hx
    by_cases hkc : k = c
    · subst hkc
      have : (G.drop k Q).X k = Q := update_self _ _ _
      rw [this] at hx
      exact h.bd k hk x (hQ.subset hx)
    · have : (G.drop c Q).X k = G.X k := update_of_ne hkc _ _
      rw [this] at hx; exact h.bd k hk x hx

section Merge
variable {b Z c : Nat} {P Q : List Nat}

theorem merge_L (x : Nat) : (G.merge N b Z c Q).L x =
    if x = Z then G.L Z ++ G.L (c + N) else if x = c + N then [] else G.L x := by
  show update (update G.L (c + N) []) Z (G.L Z ++ G.L (c + N)) x = _
  rw [update_apply]
  split
  · rfl
  · rw [update_apply]

/-- The vertex an arc list moves to. -/
def moved (N Z c y : Nat) : Nat := if y = c + N then Z else y

theorem merge_mem {y : Nat} {d : D} (hd : d ∈ G.L y) : d ∈ (G.merge N b Z c Q).L (moved N Z c y) := by
  rw [merge_L]
  unfold moved
  split
  · next h => subst h; simp [hd]
  · next h =>
    split
    · next h2 => subst h2; simp [hd]
    · exact hd

theorem merge_of_mem {x : Nat} {d : D} (hd : d ∈ (G.merge N b Z c Q).L x) : ∃ y, d ∈ G.L y ∧ moved N Z c y = x := by
  rw [merge_L] at hd
  split at hd
  · next h =>
    subst h
    by_cases hx : x = c + N
    · subst hx; simp at hd; exact ⟨_, hd, by simp [moved]⟩
    · rcases List.mem_append.1 hd with hd | hd
      · exact ⟨x, hd, by simp [moved, hx]⟩
      · exact ⟨c + N, hd, by simp [moved]⟩
  · split at hd
    · simp at hd
    · next h1 h2 => exact ⟨x, hd, by simp [moved, h2]⟩

theorem merge_live (hZ : 1 ≤ Z ∧ Z ≤ N) (k : Nat) : (G.merge N b Z c Q).Live N k ↔ G.Live N k ∧ k ≠ c := by
  unfold Gh.Live
  rw [merge_L]
  by_cases hk : 1 ≤ k
  · rw [if_neg (by omega)]
    by_cases hc : k = c
    · subst hc; simp
    · rw [if_neg (by omega)]; simp [hc]
  · simp [hk]

theorem Good.merge (hα : ∀ d, α (α d) = d) (hpar : ∀ c, 1 ≤ c → c ≤ N → par c < c) (h : Good N par α G)
    (hb : G.Live N b) (hc : G.Live N c) (hZc : par c = Z) (hX : G.X b = P ++ Z :: Q) :
    Good N par α (G.merge N b Z c Q) := by
  obtain ⟨hZ1, hZN, hZb⟩ := h.bd b hb Z (by rw [hX]; simp)
  obtain ⟨hcN, hc0, hcr⟩ := h.root c hc
  obtain ⟨hbN, hb0, hbr⟩ := h.root b hb
  have hZc' : Z < c := hZc ▸ hpar c hc.1 hcN
  have hbZ : b ≤ Z := hZb ▸ h.cp_le hpar hZ1 hZN
  have hbc : b ≠ c := by omega
  obtain ⟨p, z, hLZ⟩ := hd_some h hb (Z := Z) (by rw [hX]; simp)
  obtain ⟨q, ql, Tc, q1, q2, q3, q4⟩ := h.face c hc
  obtain ⟨r, l, T, r1, r2, r3, r4⟩ := h.face b hb
  have hcl := hc.1
  have hpZ : p ∈ G.L Z := by rw [hLZ]; simp
  have hqR : q ∈ G.L (c + N) := by rw [q1]; simp
  have hrb : r ∈ G.L (b + N) := by rw [r1]; simp
  have hhZ : G.hd Z = some p := by unfold Gh.hd; rw [hLZ]; rfl
  have hhc : G.hd (c + N) = some q := by unfold Gh.hd; rw [q1]; rfl
  have hσ : (G.merge N b Z c Q).σ = swap p q * G.σ := by
    show (match G.hd Z, G.hd (c + N) with
    | some p, some q => swap p q * G.σ
    | _, _ => G.σ) = _
    rw [hhZ, hhc]
  have hφ : (G.merge N b Z c Q).σ * α = swap p q * (G.σ * α) := by rw [hσ, mul_assoc]
  have hcp : ∀ y, (G.merge N b Z c Q).cp y = if G.cp y = c then b else G.cp y := fun _ => rfl
  have hlive := merge_live (G := G) (N := N) (b := b) (c := c) (Q := Q) ⟨hZ1, hZN⟩
  have hhd : ∀ y, y ≠ c + N → (G.merge N b Z c Q).hd y = G.hd y := by
    intro y hy
    unfold Gh.hd
    rw [merge_L, if_neg hy]
    split
    · next e => subst e; rw [hLZ]; rfl
    · rfl
  have hcm : ∀ y, (G.merge N b Z c Q).cp (moved N Z c y) = (G.merge N b Z c Q).cp y := by
    intro y
    unfold moved
    split
    · next e => subst e; rw [hcp, hcp, hcr, if_pos rfl, hZb, if_neg hbc]
    · rfl
  refine ⟨?_, ?_, ?_, ?_, ?_, ?_, ?_, ?_, ?_⟩
  · rw [hσ]
    have := h.core.merge hα (Z := Z) (R := c + N) (by omega) hLZ q1
      (.inl (h.apart hα hpZ hqR (by rw [hZb, hcr]; exact hbc)))
    show Core α _ (update (update G.L (c + N) []) Z (G.L Z ++ G.L (c + N)))
    rw [hLZ, q1]
    exact this
  · intro x d hd
    obtain ⟨y, hy, rfl⟩ := merge_of_mem hd
    obtain ⟨u, hu, hcu⟩ := h.pair y d hy
    refine ⟨moved N Z c u, merge_mem hu, ?_⟩
    rw [hcm, hcm, hcp, hcp, hcu]
  · intro x hx
    rw [merge_L] at hx
    split at hx
    · omega
    · split at hx
      · exact absurd rfl hx
      · exact h.dom x hx
  · intro k hk
    rw [hlive] at hk
    obtain ⟨a1, a2, a3⟩ := h.root k hk.1
    exact ⟨a1, a2, by rw [hcp, a3, if_neg hk.2]⟩
  · intro k hk
    rw [hlive] at hk
    rw [hcp, h.own k hk.1, if_neg hk.2]
  · intro x hx1 hxN hp hl
    by_cases hxc : x = c
    · subst hxc
      rw [hcp, hcp, h.own x hc, if_pos rfl, hZc, hZb, if_neg hbc]
    · have : ¬ G.Live N x := fun hh => hl ((hlive x).2 ⟨hh, hxc⟩)
      rw [hcp, hcp, h.joined x hx1 hxN hp this]
  · intro x hx1 hxN hp
    have hxc : x ≠ c := by rintro rfl; exact hc0 hp
    rw [hcp, h.top x hx1 hxN hp, if_neg hxc]
  · intro k hk
    rw [hlive] at hk
    obtain ⟨hk, hkc⟩ := hk
    have hk1 := hk.1
    unfold Gh.Outer
    rw [hφ, merge_L, if_neg (by omega), if_neg (by omega)]
    by_cases hkb : k = b
    · subst hkb
      have hpT : p ∈ T := by
        have : G.hd Z ∈ T.map some := r4.subset (List.mem_map_of_mem (by rw [hX]; simp))
        rw [hhZ] at this
        simpa using this
      obtain ⟨A, C, rfl⟩ := List.append_of_mem hpT
      have hdj : ∀ d ∈ r :: (A ++ p :: C), d ∉ q :: Tc := by
        intro d hd hd'
        have e1 := h.face_lab hα r2 (by simp) hrb hd
        have e2 := h.face_lab hα q2 (by simp) hqR hd'
        rw [e1] at e2
        have := Set.singleton_injective e2
        rw [hbr, hcr] at this
        exact hbc this
      have hnd : (p :: (C ++ r :: A) ++ q :: Tc).Nodup := by
        rw [List.nodup_append]
        have hpm : List.Perm (p :: (C ++ r :: A)) (r :: (A ++ p :: C)) := by
          have h1 : List.Perm ((p :: C) ++ (r :: A)) ((r :: A) ++ (p :: C)) := List.perm_append_comm
          exact h1
        refine ⟨(hpm.nodup_iff).2 r3, q3, ?_⟩
        rintro a ha _ hb' rfl
        exact hdj a (hpm.subset ha) hb'
      have o1 : Orbit (G.σ * α) ((r :: A) ++ (p :: C)) := r2
      have o2 : Orbit (G.σ * α) (p :: (C ++ r :: A)) := o1.comm
      have o3 := o2.glue q2 hnd
      have e3 : p :: (C ++ r :: A) ++ q :: Tc = (p :: C) ++ (r :: A ++ q :: Tc) := by simp
      rw [e3] at o3 hnd
      have o4 := o3.comm
      have e4 : r :: A ++ q :: Tc ++ p :: C = r :: (A ++ q :: Tc ++ p :: C) := by simp
      rw [e4] at o4
      refine ⟨r, l, A ++ q :: Tc ++ p :: C, r1, o4, ?_, ?_⟩
      · rw [← e4]
        exact (List.perm_append_comm.nodup_iff).1 hnd
      · have hX' : (G.merge N k Z c Q).X k = G.X c ++ Z :: Q := update_self _ _ _
        rw [hX']
        have hm : ∀ Y : List Nat, (∀ y ∈ Y, y ≠ c + N) → Y.map (G.merge N k Z c Q).hd = Y.map G.hd :=
          fun Y hY => List.map_congr_left fun y hy => hhd y (hY y hy)
        have hXc : ∀ y ∈ G.X c, y ≠ c + N := fun y hy => by have := h.bd c hc y hy; omega
        have hXb : ∀ y ∈ G.X k, y ≠ c + N := fun y hy => by have := h.bd k hb y hy; omega
        rw [hm _ (by
          intro y hy
          rcases List.mem_append.1 hy with hy | hy
          · exact hXc y hy
          · exact hXb y (by rw [hX]; simp at hy ⊢; tauto))]
        rw [hX, List.map_append, List.map_cons, List.map_append, List.map_cons, hhZ] at r4
        have hnA : some p ∉ A.map some ∧ some p ∉ C.map some := by
          simp only [List.nodup_cons, List.nodup_append, List.mem_cons] at r3
          obtain ⟨_, _, ⟨h1, _⟩, h2⟩ := r3
          constructor
          · intro hh
            simp at hh
            exact h2 p hh p (.inl rfl) rfl
          · intro hh
            simp at hh
            exact h1 hh
        obtain ⟨_, s2⟩ := sublist_split r4 hnA.1 hnA.2
        rw [List.map_append, List.map_cons, hhZ, List.map_append, List.map_append, List.map_cons, List.map_cons]
        refine List.Sublist.append ?_ (s2.cons_cons _)
        refine (q4.cons (some q)).trans ?_
        exact List.sublist_append_right _ _
    · obtain ⟨r', l', T', t1, t2, t3, t4⟩ := h.face k hk
      have hr' : r' ∈ G.L (k + N) := by rw [t1]; simp
      have hkr := (h.root k hk).2.2
      refine ⟨r', l', T', t1, t2.off ?_ ?_, t3, ?_⟩
      · exact h.face_not_mem hα t2 (by simp) hr' hpZ (by rw [hZb, hkr]; omega)
      · exact h.face_not_mem hα t2 (by simp) hr' hqR (by rw [hcr, hkr]; omega)
      · have hX' : (G.merge N b Z c Q).X k = G.X k := update_of_ne hkb _ _
        rw [hX']
        rwa [List.map_congr_left fun y hy => hhd y (by have := h.bd k hk y hy; omega)]
  · intro k hk x hx
    rw [hlive] at hk
    by_cases hkb : k = b
    · subst hkb
      have hX' : (G.merge N k Z c Q).X k = G.X c ++ Z :: Q := update_self _ _ _
      rw [hX'] at hx
      rw [hcp]
      rcases List.mem_append.1 hx with hx | hx
      · obtain ⟨a1, a2, a3⟩ := h.bd c hc x hx
        exact ⟨a1, a2, by rw [if_pos a3]⟩
      · obtain ⟨a1, a2, a3⟩ := h.bd k hb x (by rw [hX]; simp at hx ⊢; tauto)
        exact ⟨a1, a2, by rw [a3, if_neg hbc]⟩
    · have hX' : (G.merge N b Z c Q).X k = G.X k := update_of_ne hkb _ _
      rw [hX'] at hx
      obtain ⟨a1, a2, a3⟩ := h.bd k hk.1 x hx
      exact ⟨a1, a2, by rw [hcp, a3, if_neg hk.2]⟩

end Merge

section Add
variable {c W : Nat} {P Q : List Nat} {d : D}

theorem add_L (hW : W ≤ N) (hc1 : 1 ≤ c) (x : Nat) : (G.addEdge α N c W Q d).L x =
    if x = W then G.L W ++ [α d] else if x = c + N then d :: G.L (c + N) else G.L x := by
  show update (update G.L (c + N) (d :: G.L (c + N))) W (G.L W ++ [α d]) x = _
  rw [update_apply]
  split
  · rfl
  · rw [update_apply]

theorem Good.addEdge (hα : ∀ d, α (α d) = d) (h : Good N par α G) (hc : G.Live N c) (hX : G.X c = P ++ W :: Q)
    (hne : α d ≠ d) (hd : ∀ x, d ∉ G.L x) (hd' : ∀ x, α d ∉ G.L x) : Good N par α (G.addEdge α N c W Q d) := by
  obtain ⟨hW1, hWN, hWc⟩ := h.bd c hc W (by rw [hX]; simp)
  obtain ⟨hcN, hc0, hcr⟩ := h.root c hc
  obtain ⟨w, wl, hLW⟩ := hd_some h hc (Z := W) (by rw [hX]; simp)
  obtain ⟨r, l, T, r1, r2, r3, r4⟩ := h.face c hc
  have hc1 := hc.1
  have hwW : w ∈ G.L W := by rw [hLW]; simp
  have hrc : r ∈ G.L (c + N) := by rw [r1]; simp
  have hhW : G.hd W = some w := by unfold Gh.hd; rw [hLW]; rfl
  have hhc : G.hd (c + N) = some r := by unfold Gh.hd; rw [r1]; rfl
  have hσ : (G.addEdge α N c W Q d).σ = swap w (α d) * (swap d r * G.σ) := by
    show (match G.hd (c + N), G.hd W with
    | some r, some w => swap w (α d) * (swap d r * G.σ)
    | _, _ => G.σ) = _
    rw [hhW, hhc]
  have hφ : (G.addEdge α N c W Q d).σ * α = swap w (α d) * (swap d r * (G.σ * α)) := by rw [hσ, mul_assoc, mul_assoc]
  have hL := add_L (G := G) (α := α) (Q := Q) (d := d) hWN hc1
  have hlive : ∀ k, (G.addEdge α N c W Q d).Live N k ↔ G.Live N k := by
    intro k
    unfold Gh.Live
    by_cases hk : 1 ≤ k
    · rw [hL, if_neg (by omega)]
      split
      · next e => have : k = c := by omega
                  subst this; simp [hc.2]
      · simp
    · simp [hk]
  have hhd : ∀ y, y ≠ c + N → (G.addEdge α N c W Q d).hd y = G.hd y := by
    intro y hy
    unfold Gh.hd
    rw [hL, if_neg hy]
    split
    · next e => subst e; rw [hLW]; rfl
    · rfl
  have hwT : w ∈ T := by
    have : G.hd W ∈ T.map some := r4.subset (List.mem_map_of_mem (by rw [hX]; simp))
    rw [hhW] at this
    simpa using this
  obtain ⟨A, C, rfl⟩ := List.append_of_mem hwT
  -- the two steps
  have hdT : d ∉ r :: (A ++ w :: C) := h.face_fresh hα r2 (by simp) hrc hd
  have hdT' : α d ∉ r :: (A ++ w :: C) := h.face_fresh hα r2 (by simp) hrc hd'
  have o0 : Orbit (G.σ * α) (d :: [α d]) := by
    rw [orbit_cons]
    simp [h.core.out d hd, h.core.out (α d) hd', hα]
  have n0 : (d :: [α d] ++ r :: (A ++ w :: C)).Nodup := by
    rw [List.nodup_append]
    refine ⟨by simp [Ne.symm hne], r3, ?_⟩
    rintro a ha _ hb rfl
    simp at ha
    rcases ha with rfl | rfl
    · exact hdT hb
    · exact hdT' hb
  have o1 := o0.glue r2 n0
  have o2 : Orbit (swap d r * (G.σ * α)) (([d] ++ (α d :: r :: A)) ++ (w :: C)) := by
    simpa using o1
  have o3 := o2.comm
  have e3 : (w :: C) ++ ([d] ++ (α d :: r :: A)) = w :: (C ++ [d]) ++ α d :: (r :: A) := by simp
  have n2 : (([d] ++ (α d :: r :: A)) ++ (w :: C)).Nodup := by simpa using n0
  have n3 := (List.perm_append_comm.nodup_iff).1 n2
  rw [e3] at o3 n3
  obtain ⟨o4, o5⟩ := o3.split n3
  have o6 : Orbit (swap w (α d) * (swap d r * (G.σ * α))) ((w :: C) ++ [d]) := o4
  have o7 : Orbit (swap w (α d) * (swap d r * (G.σ * α))) (d :: (w :: C)) := o6.comm
  have n7 : (d :: (w :: C)).Nodup := by
    have : (w :: (C ++ [d])).Nodup := (List.nodup_append.1 n3).1
    have h2 : ((w :: C) ++ [d]).Nodup := this
    exact (List.perm_append_comm.nodup_iff).1 h2
  have hjoin : ¬ (Map.joined G.σ α) d r := by
    intro hj
    have := h.lab_joined hα hj
    rw [lab_eq h.core.disj hrc] at this
    have h2 : G.cp (c + N) ∈ G.lab d := by rw [this]; rfl
    obtain ⟨y, hy, _⟩ := h2
    exact hd y hy
  have hK : G.L (N + N + 1) = [] := by
    by_contra hh
    have := h.dom _ hh
    omega
  have c1 := h.core.single hK hd
  have c2 := c1.merge hα (Z := N + N + 1) (R := c + N) (p := d) (q := r) (z := []) (r := l) (by omega) (by simp)
    (by rw [update_of_ne (by omega)]; exact r1) (.inl hjoin)
  have c3 := c2.move (Z := c + N) (R := N + N + 1) (by omega) (by
    rw [update_of_ne (by omega), update_self])
  rw [update_self] at c3
  have c4 := c3.single (K := N + N + 1) (d := α d) (by
      rw [update_of_ne (by omega), update_self]) (by
      intro x hx
      rw [update_apply] at hx
      split at hx
      · simp at hx
        rcases hx with hx | rfl | hx
        · exact hne hx
        · exact hd' _ hrc
        · exact hd' (c + N) (by rw [r1]; simp [hx])
      · rw [update_apply] at hx
        split at hx
        · simp at hx
        · next e1 e2 =>
          rw [update_of_ne e2, update_of_ne e1, update_of_ne e2] at hx
          exact hd' x hx)
  have hsame : SameCycle ((swap d r * G.σ) * α) w (α d) := by
    rw [mul_assoc]
    exact o1.same (by simp) (by simp)
  have c5 := c4.merge hα (Z := W) (R := N + N + 1) (p := w) (q := α d) (z := wl) (r := []) (by omega) (by
      rw [update_of_ne (by omega), update_of_ne (by omega), update_of_ne (by omega), update_of_ne (by omega),
        update_of_ne (by omega), update_of_ne (by omega)]; exact hLW) (by rw [update_self]) (.inr hsame)
  refine ⟨?_, ?_, ?_, ?_, ?_, ?_, h.top, ?_, ?_⟩
  · rw [hσ]
    refine Core.congr c5 fun x => ?_
    rw [hL]
    simp only [update_apply]
    by_cases a1 : x = W
    · simp [a1, hLW]
    · by_cases a2 : x = N + N + 1
      · subst a2
        rw [if_neg a1, if_neg (by omega), hK]
        simp [a1]
      · by_cases a3 : x = c + N
        · have a4 : ¬ c + N = W := by omega
          have a5 : ¬ c = N + 1 := by omega
          have a6 : ¬ c + N = N + N + 1 := by omega
          simp [a3, a4, a5, a6, r1]
        · simp [a1, a2, a3]
  · have hm : ∀ y e, e ∈ G.L y → e ∈ (G.addEdge α N c W Q d).L y := by
      intro y e he
      rw [hL]
      split
      · next a => subst a; simp [he]
      · split
        · next a => subst a; simp [he]
        · exact he
    have hdc : d ∈ (G.addEdge α N c W Q d).L (c + N) := by
      rw [hL, if_neg (by omega), if_pos rfl]; simp
    have hdW : α d ∈ (G.addEdge α N c W Q d).L W := by
      rw [hL, if_pos rfl]; simp
    intro x e he
    show ∃ y, α e ∈ (G.addEdge α N c W Q d).L y ∧ G.cp y = G.cp x
    rw [hL] at he
    have old : e ∈ G.L x → ∃ y, α e ∈ (G.addEdge α N c W Q d).L y ∧ G.cp y = G.cp x := by
      intro he
      obtain ⟨y, hy, hcy⟩ := h.pair x e he
      exact ⟨y, hm y _ hy, hcy⟩
    split at he
    · next a =>
      subst a
      rcases List.mem_append.1 he with he | he
      · exact old he
      · simp at he; subst he
        exact ⟨c + N, by rw [hα]; exact hdc, by rw [hWc, hcr]⟩
    · split at he
      · next a =>
        subst a
        rcases List.mem_cons.1 he with rfl | he
        · exact ⟨W, hdW, by rw [hWc, hcr]⟩
        · exact old he
      · exact old he
  · intro x hx
    rw [hL] at hx
    split at hx
    · omega
    · split at hx
      · omega
      · exact h.dom x hx
  · intro k hk; exact h.root k ((hlive k).1 hk)
  · intro k hk; exact h.own k ((hlive k).1 hk)
  · intro x a1 a2 a3 a4; exact h.joined x a1 a2 a3 fun hh => a4 ((hlive x).2 hh)
  · intro k hk
    rw [hlive] at hk
    have hk1 := hk.1
    unfold Gh.Outer
    rw [hφ, hL, if_neg (by omega)]
    by_cases hkc : k = c
    · subst hkc
      rw [if_pos rfl]
      refine ⟨d, _, w :: C, rfl, o7, n7, ?_⟩
      have hX' : (G.addEdge α N k W Q d).X k = W :: Q := update_self _ _ _
      rw [hX', List.map_congr_left fun y hy => hhd y (by
        have := h.bd k hc y (by rw [hX]; exact List.mem_append_right _ hy); omega)]
      rw [hX, List.map_append, List.map_cons, List.map_append, List.map_cons, hhW] at r4
      have hnA : some w ∉ A.map some ∧ some w ∉ C.map some := by
        simp only [List.nodup_cons, List.nodup_append, List.mem_cons] at r3
        obtain ⟨_, _, ⟨h1, _⟩, h2⟩ := r3
        constructor
        · intro hh
          simp at hh
          exact h2 w hh w (.inl rfl) rfl
        · intro hh
          simp at hh
          exact h1 hh
      obtain ⟨_, s2⟩ := sublist_split r4 hnA.1 hnA.2
      rw [List.map_cons, List.map_cons, hhW]
      exact s2.cons_cons _
    · rw [if_neg (by omega)]
      obtain ⟨r', l', T', t1, t2, t3, t4⟩ := h.face k hk
      have hr' : r' ∈ G.L (k + N) := by rw [t1]; simp
      have hkr := (h.root k hk).2.2
      refine ⟨r', l', T', t1, (t2.off ?_ ?_).off ?_ ?_, t3, ?_⟩
      · exact h.face_fresh hα t2 (by simp) hr' hd
      · exact h.face_not_mem hα t2 (by simp) hr' hrc (by rw [hcr, hkr]; omega)
      · exact h.face_not_mem hα t2 (by simp) hr' hwW (by rw [hWc, hkr]; omega)
      · exact h.face_fresh hα t2 (by simp) hr' hd'
      · have hX' : (G.addEdge α N c W Q d).X k = G.X k := update_of_ne hkc _ _
        rw [hX']
        rwa [List.map_congr_left fun y hy => hhd y (by have := h.bd k hk y hy; omega)]
  · intro k hk x hx
    rw [hlive] at hk
    by_cases hkc : k = c
    · subst hkc
      have hX' : (G.addEdge α N k W Q d).X k = W :: Q := update_self _ _ _
      rw [hX'] at hx
      exact h.bd k hc x (by rw [hX]; exact List.mem_append_right _ hx)
    · have hX' : (G.addEdge α N c W Q d).X k = G.X k := update_of_ne hkc _ _
      rw [hX'] at hx
      exact h.bd k hk x hx

end Add
end Verif.Embed
