import Verif.Embed.Steps

/-
Reflecting a whole component keeps the ideal state good.
-/
namespace Verif.Embed
open Equiv Equiv.Perm Verif.Map Function
open Verif.Props (AncEq)

set_option linter.unusedSectionVars false

variable {D : Type} [Finite D] [DecidableEq D] {N : Nat} {par : Nat → Nat} {α : Perm D} {G : Gh D} {c : Nat}

/-- Arcs of component `c`. -/
def Gh.part (G : Gh D) (c : Nat) : Set D := { d | ∃ x, d ∈ G.L x ∧ G.cp x = c }

open Classical in
/-- Component `c` reflected. -/
noncomputable def Gh.reflect (G : Gh D) (c : Nat) : Gh D where
  σ := if h : ∀ d, G.σ d ∈ G.part c ↔ d ∈ G.part c then Map.mirror G.σ (G.part c) h else G.σ
  L := fun x => if G.cp x = c then (G.L x).reverse else G.L x
  o := fun x => if G.cp x = c then !G.o x else G.o x
  cp := G.cp
  X := update G.X c (G.X c).reverse

theorem part_iff (d : D) : d ∈ G.part c ↔ c ∈ G.lab d := Iff.rfl

theorem Good.part_rot (h : Good N par α G) (d : D) : G.σ d ∈ G.part c ↔ d ∈ G.part c := by
  rw [part_iff, part_iff, h.lab_rot]

theorem Good.part_pair (hα : ∀ d, α (α d) = d) (h : Good N par α G) (d : D) : α d ∈ G.part c ↔ d ∈ G.part c := by
  rw [part_iff, part_iff, h.lab_pair hα]

theorem reflect_L (x : Nat) : (G.reflect c).L x = if G.cp x = c then (G.L x).reverse else G.L x := rfl

theorem reflect_mem {x : Nat} {d : D} : d ∈ (G.reflect c).L x ↔ d ∈ G.L x := by
  rw [reflect_L]; split <;> simp

theorem reflect_nil {x : Nat} : (G.reflect c).L x = [] ↔ G.L x = [] := by
  rw [reflect_L]; split <;> simp

theorem reflect_live {k : Nat} : (G.reflect c).Live N k ↔ G.Live N k := by
  unfold Gh.Live; rw [Ne, Ne, reflect_nil]

theorem Good.reflect (hα : ∀ d, α (α d) = d) (h : Good N par α G) : Good N par α (G.reflect c) := by
  have hrot := h.part_rot (c := c)
  have hσ : (G.reflect c).σ = Map.mirror G.σ (G.part c) hrot := dif_pos hrot
  have hin : ∀ x, G.cp x = c → ∀ d ∈ G.L x, d ∈ G.part c := fun x hx d hd => ⟨x, hd, hx⟩
  have hout : ∀ x, G.cp x ≠ c → ∀ d ∈ G.L x, d ∉ G.part c := by
    rintro x hx d hd ⟨y, hy, hcy⟩
    exact hx (h.core.disj _ _ d hd hy ▸ hcy)
  have hai : ∀ x, (α⁻¹ : Perm D) x = α x := fun x => by rw [inv_eq_iff_eq, hα]
  refine ⟨⟨?_, ?_, ?_, ?_, ?_⟩, ?_, ?_, ?_, ?_, ?_, h.top, ?_, ?_⟩
  · rw [hσ]; exact h.core.flat.mirrored hα hrot (h.part_pair hα)
  · intro x
    rw [reflect_L, hσ]
    split
    · next hx =>
      refine orbit_congr (orbit_inv (h.core.orbit x)) fun d hd => ?_
      exact mirror_in hrot (hin x hx d (by simpa using hd))
    · next hx =>
      refine orbit_congr (h.core.orbit x) fun d hd => ?_
      exact mirror_out hrot (hout x hx d hd)
  · intro x
    rw [reflect_L]
    split
    · exact List.nodup_reverse.2 (h.core.nodup x)
    · exact h.core.nodup x
  · intro x y d
    rw [reflect_mem, reflect_mem]
    exact h.core.disj x y d
  · intro d hd
    have hd' : ∀ x, d ∉ G.L x := fun x hx => hd x (reflect_mem.2 hx)
    rw [hσ, mirror_out hrot, h.core.out d hd']
    rintro ⟨x, hx, _⟩
    exact hd' x hx
  · intro x d hd
    rw [reflect_mem] at hd
    obtain ⟨y, hy, hcy⟩ := h.pair x d hd
    exact ⟨y, reflect_mem.2 hy, hcy⟩
  · intro x hx
    rw [Ne, reflect_nil] at hx
    exact h.dom x hx
  · intro k hk; exact h.root k (reflect_live.1 hk)
  · intro k hk; exact h.own k (reflect_live.1 hk)
  · intro x a1 a2 a3 a4; exact h.joined x a1 a2 a3 fun hh => a4 (reflect_live.2 hh)
  · intro k hk
    rw [reflect_live] at hk
    obtain ⟨r, l, T, t1, t2, t3, t4⟩ := h.face k hk
    have hrL : r ∈ G.L (k + N) := by rw [t1]; simp
    have hkr := (h.root k hk).2.2
    by_cases hkc : k = c
    · subst hkc
      have hS : ∀ d ∈ r :: T, d ∈ G.part k := by
        intro d hd
        rw [part_iff, h.face_lab hα t2 (by simp) hrL hd, hkr]; rfl
      have hrev : (G.L (k + N)).reverse.head? = some ((G.σ⁻¹ : Perm D) r) := by
        rw [orbit_head (h.core.orbit (k + N)), t1]; rfl
      have hL' : (G.reflect k).L (k + N) = (G.L (k + N)).reverse := by rw [reflect_L, if_pos hkr]
      obtain ⟨l', hl'⟩ : ∃ l', (G.L (k + N)).reverse = (G.σ⁻¹ : Perm D) r :: l' := by
        cases hh : (G.L (k + N)).reverse with
        | nil => rw [hh] at hrev; simp at hrev
        | cons a b => rw [hh] at hrev; simp at hrev; exact ⟨b, by rw [hrev]; rfl⟩
      have o1 : Orbit ((G.σ * α)⁻¹ : Perm D) (T.reverse ++ [r]) := by
        have := orbit_inv t2
        rwa [List.reverse_cons] at this
      have o2 : Orbit ((G.σ * α)⁻¹ : Perm D) ([r] ++ T.reverse) := o1.comm
      have o3 : Orbit ((G.reflect k).σ * α) (([r] ++ T.reverse).map (G.σ⁻¹ : Perm D)) := by
        unfold Orbit at *
        rw [← List.map_rotate, ← o2, List.map_map, List.map_map]
        refine List.map_congr_left fun d hd => ?_
        have hd' : d ∈ G.part k := hS d (by simp at hd ⊢; tauto)
        have hd2 : α ((G.σ⁻¹ : Perm D) d) ∈ G.part k := by
          rw [h.part_pair hα, ← hrot, p_pinv]; exact hd'
        show (G.reflect k).σ (α ((G.σ⁻¹ : Perm D) d)) = (G.σ⁻¹ : Perm D) ((G.σ * α)⁻¹ d)
        rw [hσ, mirror_in hrot hd2, mul_inv_rev, mul_apply, hai]
      refine ⟨(G.σ⁻¹ : Perm D) r, l', T.reverse.map (G.σ⁻¹ : Perm D), by rw [hL', hl'], ?_, ?_, ?_⟩
      · simpa using o3
      · have : (([r] ++ T.reverse).map (G.σ⁻¹ : Perm D)).Nodup := by
          refine (List.nodup_map_iff (G.σ⁻¹ : Perm D).injective).2 ?_
          have hp : List.Perm ([r] ++ T.reverse) (r :: T) := (List.reverse_perm T).cons r
          exact hp.nodup_iff.2 t3
        simpa using this
      · have hX' : (G.reflect k).X k = (G.X k).reverse := update_self _ _ _
        rw [hX']
        have hh : ∀ y ∈ (G.X k).reverse, (G.reflect k).hd y = (G.hd y).map (G.σ⁻¹ : Perm D) := by
          intro y hy
          have := (h.bd k hk y (by simpa using hy)).2.2
          unfold Gh.hd
          rw [reflect_L, if_pos this, orbit_head (h.core.orbit y)]
        rw [List.map_congr_left hh]
        have e1 : (G.X k).reverse.map (fun y => (G.hd y).map (G.σ⁻¹ : Perm D)) =
            (((G.X k).map G.hd).reverse).map (Option.map (G.σ⁻¹ : Perm D)) := by
          rw [← List.map_reverse, List.map_map]; rfl
        have e2 : (T.reverse.map (G.σ⁻¹ : Perm D)).map some = ((T.map some).reverse).map (Option.map (G.σ⁻¹ : Perm D)) := by
          rw [← List.map_reverse, List.map_map, List.map_map]; rfl
        rw [e1, e2]
        exact (List.Sublist.reverse t4).map _
    · have hS : ∀ d ∈ r :: T, d ∉ G.part c := by
        intro d hd hh
        rw [part_iff, h.face_lab hα t2 (by simp) hrL hd, hkr] at hh
        exact hkc hh.symm
      refine ⟨r, l, T, by rw [reflect_L, if_neg (by rw [hkr]; exact hkc)]; exact t1, ?_, t3, ?_⟩
      · refine orbit_congr t2 fun d hd => ?_
        show (G.reflect c).σ (α d) = G.σ (α d)
        rw [hσ, mirror_out hrot]
        rw [h.part_pair hα]; exact hS d hd
      · have hX' : (G.reflect c).X k = G.X k := update_of_ne hkc _ _
        rw [hX']
        rwa [List.map_congr_left fun y hy => by
          unfold Gh.hd
          rw [reflect_L, if_neg (by rw [(h.bd k hk y hy).2.2]; exact hkc)]]
  · intro k hk x hx
    rw [reflect_live] at hk
    refine h.bd k hk x ?_
    by_cases hkc : k = c
    · subst hkc
      have hX' : (G.reflect k).X k = (G.X k).reverse := update_self _ _ _
      rw [hX'] at hx; simpa using hx
    · have hX' : (G.reflect c).X k = G.X k := update_of_ne hkc _ _
      rwa [hX'] at hx

end Verif.Embed
