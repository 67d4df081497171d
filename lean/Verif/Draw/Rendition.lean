import Verif.Draw.Picture

/-
The rendition of a drawing shows the drawing.
-/
namespace Verif
namespace Draw
open Graph Props

section
variable {c : Ctx} {g : Graph}

theorem label_eq (v : Nat) : label (decide (g.flags &&& 8 ≠ 0)) v = labelOf g v := by
  unfold label labelOf
  by_cases hf : g.flags &&& 8 ≠ 0 <;> simp [hf]

/-- The places a label is written to. -/
theorem label_cell (hd : Drawable c g) {v r k : Nat} (hv : v ∈ verts g) (hk : k ≤ g.M) {w : Int × Nat}
    (hw : w ∈ labelW g.M (c.VI v) (label (decide (g.flags &&& 8 ≠ 0)) v)) (hq : w.1 = ((r * (g.M + 1) + k : Nat) : Int)) :
    InLabel g c v r k := by
  have hok := hd.vert v hv
  obtain ⟨m1, m2, m3⟩ := mid_eq hok.2.2.1 hok.2.2.2.1
  have hstop := hok.2.2.2.2
  have hstart := hok.2.2.1
  unfold labelW at hw
  rw [m1] at hw
  by_cases hf : Fits g c v
  · rw [if_pos ((wide_iff rfl hok.2.2.2.1).2 hf)] at hw
    obtain ⟨j, j1, j2⟩ := mem_textW.1 hw
    rw [label_eq] at j1
    have hj : j < (labelOf g v).length := (List.getElem?_eq_some_iff.1 j1).1
    rw [hq] at j2
    push_cast at j2
    exact .inl ⟨hf, by unfold vrow; omega, by unfold vrow; omega⟩
  · rw [if_neg (fun h => hf ((wide_iff rfl hok.2.2.2.1).1 h))] at hw
    right
    refine ⟨hf, ?_⟩
    simp only [List.mem_cons, List.not_mem_nil, or_false] at hw
    rcases hw with rfl | rfl
    · have hq' : 2 * (c.VI v).pos * ((g.M : Int) + 1) + vmid c v = r * (g.M + 1) + k := by
        have : 2 * (c.VI v).pos * ((g.M : Int) + 1) + vmid c v = ((r * (g.M + 1) + k : Nat) : Int) := hq
        push_cast at this; exact this
      have := cell_inj hq' (by omega) (by omega) (by omega) (by omega)
      unfold vrow
      omega
    · have hq' : (2 * (c.VI v).pos + 1) * ((g.M : Int) + 1) + vmid c v = r * (g.M + 1) + k := by
        have : (2 * (c.VI v).pos + 1) * ((g.M : Int) + 1) + vmid c v = ((r * (g.M + 1) + k : Nat) : Int) := hq
        push_cast at this; exact this
      have := cell_inj hq' (by omega) (by omega) (by omega) (by omega)
      unfold vrow
      omega

theorem pic_rendition (hd : Drawable c g)
    (hrep : ∀ e, Live g e → ∃ f ∈ edges g, c.E f = c.E e) (hlive : ∀ e ∈ edges g, Live g e) :
    Rendition g c (pic (decide (g.flags &&& 8 ≠ 0)) c g) := by
  have hbound : ∀ i < (g.M + 1) * 2 * g.N, ∃ r k, r < 2 * g.N ∧ k ≤ g.M ∧ i = r * (g.M + 1) + k := by
    intro i hi
    refine ⟨i / (g.M + 1), i % (g.M + 1), ?_, ?_, ?_⟩
    · rw [Nat.div_lt_iff_lt_mul (by omega)]
      have : (g.M + 1) * 2 * g.N = 2 * g.N * (g.M + 1) := by ring
      omega
    · have := Nat.mod_lt i (show 0 < g.M + 1 by omega)
      omega
    · have := Nat.div_add_mod i (g.M + 1)
      rw [mul_comm] at this
      omega
  -- no edge passes over a vertex
  have hfree : ∀ v ∈ verts g, ∀ r k : Nat, (r : Int) = 2 * (c.VI v).pos → (c.VI v).start ≤ k → (k : Int) ≤ (c.VI v).stop →
      last ((edges g).flatMap (edgeW c g.M)) (r * (g.M + 1) + k) = none := by
    intro v hv r k hr h1 h2
    have hok := hd.vert v hv
    apply edges_none hd (by have := hok.2.2.2.2; omega)
    intro e he hx
    exact hd.clear e he v hv ⟨by omega, by omega, by omega, by omega⟩
  have hnoedge : ∀ r : Nat, last ((edges g).flatMap (edgeW c g.M)) (r * (g.M + 1) + g.M) = none := by
    intro r
    apply edges_none hd (le_refl _)
    intro e he hx
    have := (hd.edge e he).2.1
    omega
  refine ⟨rfl, ?_, ?_, ?_, ?_, ?_, ?_, ?_, ?_⟩
  · show (last (allW _ c g) _).or none = _
    unfold allW
    rw [last_append, last_append, last_append]
    have : last [(((g.M : Int) + 1) * 2 * g.N, 0)] ((g.M + 1) * 2 * g.N) = some 0 := by
      apply last_const
      · intro w hw _
        simp only [List.mem_cons, List.not_mem_nil, or_false] at hw
        rw [hw]
      · exact ⟨_, List.mem_singleton.2 rfl, by push_cast; rfl⟩
    rw [this]
    simp
  · intro i hi
    obtain ⟨r, k, hr, hk, rfl⟩ := hbound i hi
    rw [pic_cell hr hk]
    cases h1 : last ((edges g).flatMap (edgeW c g.M)) (r * (g.M + 1) + k) with
    | some x =>
      obtain ⟨w, hw, -, h2⟩ := last_some h1
      obtain ⟨e, he, hw⟩ := List.mem_flatMap.1 hw
      have := edgeW_char hw
      exact ⟨x, by simp, by omega⟩
    | none =>
      cases h2 : last ((verts g).flatMap (vertexW (decide (g.flags &&& 8 ≠ 0)) c g.M)) (r * (g.M + 1) + k) with
      | some x =>
        obtain ⟨w, hw, -, h3⟩ := last_some h2
        obtain ⟨e, he, hw⟩ := List.mem_flatMap.1 hw
        have := vertexW_pos hw
        exact ⟨x, by simp, by omega⟩
      | none =>
        exact ⟨if k = g.M then 10 else 32, by simp, by split <;> omega⟩
  · intro r hr
    unfold Shown
    rw [pic_cell (by omega) (le_refl _), hnoedge, last_none]
    · simp
    · intro w hw hq
      obtain ⟨v, hv, hw⟩ := List.mem_flatMap.1 hw
      have := (vertex_cell hd hv (le_refl _) hw hq).1
      push_cast at this
      omega
  · intro v hv1 hv2 hin
    have hv : v ∈ verts g := mem_verts.2 ⟨hv1, hv2⟩
    have hok := hd.vert v hv
    obtain ⟨m1, m2, m3⟩ := mid_eq hok.2.2.1 hok.2.2.2.1
    have hpos := hok.1
    have hpos' := hok.2.1
    have hr : ((2 * (vrow c v).toNat : Nat) : Int) = 2 * (c.VI v).pos := by unfold vrow; push_cast; omega
    unfold Shown
    rw [pic_cell (by omega) (le_refl _), hnoedge, last_none]
    · simp
    · intro w hw hq
      obtain ⟨y, hy, hw⟩ := List.mem_flatMap.1 hw
      have hc := vertex_cell hd hy (le_refl _) hw hq
      rw [hr] at hc
      have hyv : y = v := hd.apart y hy v hv (by omega)
      subst hyv
      have hstop := hok.2.2.2.2
      rcases hc.2 with h | h | h
      · omega
      · have hf := (wide_iff rfl hok.2.2.2.1).1 h.1
        have hi := hin hf
        unfold InRow at hi
        rw [label_eq] at h
        omega
      · omega
  · intro e he r h1 h2
    obtain ⟨f, hf, hfe⟩ := hrep e he
    obtain ⟨e1, e2, e3, e4, e5⟩ := hd.edge f hf
    unfold etop at h1
    unfold ebottom at h2
    unfold Shown ecol
    rw [← hfe] at h1 h2 ⊢
    rw [pic_cell (by omega) (by omega)]
    have : last ((edges g).flatMap (edgeW c g.M)) (r * (g.M + 1) + (c.E f).pos.toNat) = some 124 := by
      apply last_const
      · intro w hw _
        obtain ⟨e', he', hw⟩ := List.mem_flatMap.1 hw
        exact edgeW_char hw
      · obtain ⟨w, hw, hq⟩ := (edge_cell hd hf (r := r) (k := (c.E f).pos.toNat) (by omega)).2 ⟨h1, h2, by omega⟩
        exact ⟨w, List.mem_flatMap.2 ⟨f, hf, hw⟩, hq⟩
    rw [this]
    simp
  · intro v hv1 hv2 k hk1 hk2 hnl
    have hv : v ∈ verts g := mem_verts.2 ⟨hv1, hv2⟩
    have hok := hd.vert v hv
    have hpos := hok.1
    have hpos' := hok.2.1
    have hstop := hok.2.2.2.2
    unfold vleft at hk1
    unfold vright at hk2
    have hr : ((2 * (vrow c v).toNat : Nat) : Int) = 2 * (c.VI v).pos := by unfold vrow; push_cast; omega
    unfold Shown
    rw [pic_cell (by omega) (by omega), hfree v hv _ _ hr hk1 hk2, verts_last hd hv (by omega) (.inl hr)]
    unfold vertexW
    rw [last_append, last_none (W := labelW _ _ _) (fun w hw hq => hnl (label_cell hd hv (by omega) hw hq))]
    have : last (dashW (2 * (c.VI v).pos * ((g.M : Int) + 1)) ((c.VI v).stop - (c.VI v).start + 1).toNat (c.VI v).start)
        (2 * (vrow c v).toNat * (g.M + 1) + k) = some 45 := by
      apply last_const
      · intro w hw _
        obtain ⟨j, -, -, rfl⟩ := mem_dashW.1 hw
        rfl
      · refine ⟨_, mem_dashW.2 ⟨k, by omega, by omega, rfl⟩, ?_⟩
        push_cast at hr ⊢
        rw [hr]
    rw [this]
    simp
  · intro v hv1 hv2 hf j x hx hj
    have hv : v ∈ verts g := mem_verts.2 ⟨hv1, hv2⟩
    have hok := hd.vert v hv
    obtain ⟨m1, m2, m3⟩ := mid_eq hok.2.2.1 hok.2.2.2.1
    have hpos := hok.1
    have hpos' := hok.2.1
    have hstart := hok.2.2.1
    have hstop := hok.2.2.2.2
    have hm0 : (((vmid c v).toNat : Nat) : Int) = vmid c v := by omega
    unfold vright at hj
    have hr : ((2 * (vrow c v).toNat : Nat) : Int) = 2 * (c.VI v).pos := by unfold vrow; push_cast; omega
    unfold Shown
    rw [pic_cell (by omega) (by omega), hfree v hv _ _ hr (by push_cast; omega) (by push_cast; omega),
      verts_last hd hv (by omega) (.inl hr)]
    unfold vertexW
    rw [last_append]
    unfold labelW
    rw [if_pos ((wide_iff rfl hok.2.2.2.1).2 hf), label_eq, m1,
      textW_last (j := j) (x := x) (by push_cast at hr ⊢; rw [hr, hm0]; ring) hx]
    simp
  · intro r hr k hk hvs hes
    unfold Shown
    rw [pic_cell hr (by omega), edges_none hd (by omega), last_none]
    · rw [if_neg (by omega)]
      simp
    · intro w hw hq
      obtain ⟨v, hv, hw⟩ := List.mem_flatMap.1 hw
      obtain ⟨n1, n2⟩ := hvs v (mem_verts.1 hv).1 (mem_verts.1 hv).2
      unfold vertexW at hw
      rcases List.mem_append.1 hw with hw' | hw'
      · apply n1
        obtain ⟨j, j1, j2, rfl⟩ := mem_dashW.1 hw'
        have hok := hd.vert v hv
        have h3 := hok.2.2.1
        have h4 := hok.2.2.2.1
        have h5 := hok.2.2.2.2
        have hq' : 2 * (c.VI v).pos * ((g.M : Int) + 1) + j = r * (g.M + 1) + k := by
          have : 2 * (c.VI v).pos * ((g.M : Int) + 1) + j = ((r * (g.M + 1) + k : Nat) : Int) := hq
          push_cast at this; exact this
        have := cell_inj hq' (by omega) (by omega) (by omega) (by omega)
        unfold vrow vleft vright
        omega
      · exact n2 (label_cell hd hv (by omega) hw' hq)
    · intro e he hx
      exact hes e (hlive e he) hx

end
end Draw
end Verif
