import Verif.Draw.Render
import Verif.Spec.Drawing
import Mathlib.Tactic.Linarith
import Mathlib.Tactic.Ring

/-
The rendition of a drawing shows the drawing: lemmas.
-/
namespace Verif
namespace Draw
open Graph Props

theorem cell_inj {m r k r' k' : Int} (h : r * m + k = r' * m + k') (h1 : 0 ≤ k) (h2 : k < m) (h3 : 0 ≤ k') (h4 : k' < m) :
    r = r' ∧ k = k' := by
  have hm : 0 < m := by omega
  rcases lt_trichotomy r r' with hr | hr | hr
  · have : r * m + m ≤ r' * m := by nlinarith
    omega
  · exact ⟨hr, by subst hr; omega⟩
  · have : r' * m + m ≤ r * m := by nlinarith
    omega

theorem last_flatMap {f : Nat → List (Int × Nat)} {i x : Nat} : ∀ {l : List Nat}, x ∈ l →
    (∀ y ∈ l, y ≠ x → ∀ w ∈ f y, w.1 ≠ (i : Int)) → last (l.flatMap f) i = last (f x) i := by
  intro l
  induction l with
  | nil => intro h; simp at h
  | cons y l ih =>
    intro hx h
    rw [List.flatMap_cons, last_append]
    by_cases hxl : x ∈ l
    · rw [ih hxl (fun z hz => h z (by simp [hz]))]
      by_cases hy : y = x
      · subst hy
        cases last (f y) i <;> simp
      · rw [last_none (h y (by simp) hy)]
        simp
    · have hyx : y = x := by
        rcases List.mem_cons.1 hx with h | h
        · exact h.symm
        · exact absurd h hxl
      subst hyx
      rw [last_none (W := l.flatMap f) (fun w hw => by
        obtain ⟨z, hz, hw⟩ := List.mem_flatMap.1 hw
        exact h z (by simp [hz]) (fun hq => hxl (hq ▸ hz)) w hw)]
      simp

section
variable {c : Ctx} {g : Graph}

/-- What a vertex of an accepted drawing satisfies. -/
theorem mid_eq {v : Nat} (h1 : 0 ≤ (c.VI v).start) (h2 : (c.VI v).start ≤ (c.VI v).stop) :
    ((c.VI v).start + (c.VI v).stop).tdiv 2 = vmid c v ∧ (c.VI v).start ≤ vmid c v ∧ vmid c v ≤ (c.VI v).stop := by
  unfold vmid vleft vright
  rw [Int.tdiv_eq_ediv_of_nonneg (by omega)]
  omega

/-- Where a vertex writes, relative to the start of its row. -/
theorem mem_vertexW {zero : Bool} {v : Nat} (h : VertexOk c g v) {w : Int × Nat} (hw : w ∈ vertexW zero c g.M v) :
    ∃ t : Int, w.1 = 2 * (c.VI v).pos * (g.M + 1) + t ∧ 0 ≤ t ∧ t ≤ 2 * g.M ∧
      ((c.VI v).start ≤ t ∧ t ≤ (c.VI v).stop ∨ (wide (c.VI v) (label zero v) = true ∧ vmid c v ≤ t ∧ t < vmid c v + (label zero v).length) ∨
        (wide (c.VI v) (label zero v) = false ∧ (t = vmid c v ∨ t = g.M + 1 + vmid c v))) := by
  obtain ⟨h1, h2, h3, h4, h5⟩ := h
  obtain ⟨m1, m2, m3⟩ := mid_eq h3 h4
  unfold vertexW at hw
  rcases List.mem_append.1 hw with hw | hw
  · obtain ⟨j, j1, j2, rfl⟩ := mem_dashW.1 hw
    exact ⟨j, rfl, by omega, by omega, .inl ⟨by omega, by omega⟩⟩
  · unfold labelW at hw
    rw [m1] at hw
    by_cases hwd : wide (c.VI v) (label zero v) = true
    · rw [if_pos hwd] at hw
      obtain ⟨j, j1, j2⟩ := mem_textW.1 hw
      have hj : j < (label zero v).length := (List.getElem?_eq_some_iff.1 j1).1
      have hwd' := hwd
      unfold wide at hwd'
      simp only [decide_eq_true_eq] at hwd'
      refine ⟨vmid c v + j, by rw [j2]; ring, by omega, by omega, .inr (.inl ⟨hwd, by omega, by omega⟩)⟩
    · rw [if_neg hwd] at hw
      simp only [List.mem_cons, List.not_mem_nil, or_false] at hw
      rcases hw with rfl | rfl
      · exact ⟨vmid c v, rfl, by omega, by omega, .inr (.inr ⟨by simpa using hwd, .inl rfl⟩)⟩
      · exact ⟨g.M + 1 + vmid c v, by ring, by omega, by omega, .inr (.inr ⟨by simpa using hwd, .inr rfl⟩)⟩

theorem digits_pos {n x : Nat} (h : x ∈ Text.dec n) : x ≠ 0 := by
  have := Text.isDigit_iff.1 (Text.dec_digit h)
  omega

theorem vertexW_pos {zero : Bool} {v M : Nat} {w : Int × Nat} (hw : w ∈ vertexW zero c M v) : w.2 ≠ 0 := by
  unfold vertexW at hw
  rcases List.mem_append.1 hw with hw | hw
  · obtain ⟨j, -, -, rfl⟩ := mem_dashW.1 hw
    simp
  · unfold labelW at hw
    split at hw
    · obtain ⟨j, j1, j2⟩ := mem_textW.1 hw
      exact digits_pos (List.mem_of_getElem? j1)
    · have hne : label zero v ≠ [] := Text.dec_ne _
      simp only [List.mem_cons, List.not_mem_nil, or_false] at hw
      rcases hw with rfl | rfl
      · dsimp only
        split
        · cases hl : label zero v with
          | nil => exact absurd hl hne
          | cons a l =>
            have : a ∈ label zero v := by rw [hl]; simp
            exact digits_pos this
        · simp
      · dsimp only
        have hm : ∀ d, (label zero v).getLastD d ∈ label zero v := by
          intro d
          cases hl : label zero v with
          | nil => exact absurd hl hne
          | cons a l =>
            rw [List.getLastD_cons]
            exact List.getLastD_mem_cons
        exact digits_pos (hm _)

theorem edgeW_char {e M : Nat} {w : Int × Nat} (hw : w ∈ edgeW c M e) : w.2 = 124 := by
  obtain ⟨j, -, -, h⟩ := mem_barW.1 hw
  rcases h with ⟨-, rfl⟩ | rfl <;> rfl

theorem clearW_char {n M : Nat} {w : Int × Nat} (hw : w ∈ clearW M n) : w.2 = 32 ∨ w.2 = 10 := by
  unfold clearW at hw
  simp only [List.mem_append, List.mem_flatMap, List.mem_range, List.mem_cons, List.not_mem_nil, or_false] at hw
  rcases hw with ⟨m, -, rfl | rfl⟩ | rfl | rfl <;> simp

/-- Where an edge writes. -/
theorem mem_edgeW {e : Nat} (h : (c.E e).start ≤ (c.E e).stop) {w : Int × Nat} : w ∈ edgeW c g.M e ↔
    ∃ r : Int, 2 * (c.E e).start < r ∧ r < 2 * (c.E e).stop ∧ w = (r * (g.M + 1) + (c.E e).pos, 124) := by
  unfold edgeW
  rw [mem_barW]
  constructor
  · rintro ⟨j, j1, j2, ⟨j3, j4⟩ | j4⟩
    · exact ⟨2 * j, by omega, by omega, j4⟩
    · exact ⟨2 * j + 1, by omega, by omega, j4⟩
  · rintro ⟨r, r1, r2, rfl⟩
    rcases Int.even_or_odd' r with ⟨j, rfl | rfl⟩
    · exact ⟨j, by omega, by omega, .inl ⟨by omega, rfl⟩⟩
    · exact ⟨j, by omega, by omega, .inr rfl⟩

/-- The blank page. -/
theorem clear_last {r k : Nat} (hr : r < 2 * g.N) (hk : k ≤ g.M) :
    last ((List.range g.N).flatMap (clearW g.M)) (r * (g.M + 1) + k) = some (if k = g.M then 10 else 32) := by
  have key : ∀ n r' k' : Nat, k' ≤ g.M → (((r' * (g.M + 1) + k' : Nat) : Int) = ((r * (g.M + 1) + k : Nat) : Int)) →
      r' = r ∧ k' = k := by
    intro n r' k' hk' hq
    push_cast at hq
    have := cell_inj (m := (g.M : Int) + 1) hq (by omega) (by omega) (by omega) (by omega)
    omega
  apply last_const
  · intro w hw hq
    obtain ⟨n, -, hw⟩ := List.mem_flatMap.1 hw
    unfold clearW at hw
    simp only [List.mem_append, List.mem_flatMap, List.mem_range, List.mem_cons, List.not_mem_nil, or_false] at hw
    rcases hw with ⟨m, hm, rfl | rfl⟩ | rfl | rfl
    · have := key n _ _ (by omega) hq
      rw [if_neg (by omega)]
    · have := key n _ _ (by omega) hq
      rw [if_neg (by omega)]
    · have := key n _ _ (by omega) hq
      rw [if_pos (by omega)]
    · have := key n _ _ (by omega) hq
      rw [if_pos (by omega)]
  · by_cases hkM : k = g.M
    · rcases Nat.even_or_odd' r with ⟨n, rfl | rfl⟩
      · refine ⟨(((2 * n) * (g.M + 1) + g.M : Nat), 10), List.mem_flatMap.2 ⟨n, List.mem_range.2 (by omega), ?_⟩, ?_⟩
        · unfold clearW; simp
        · rw [hkM]
      · refine ⟨(((2 * n + 1) * (g.M + 1) + g.M : Nat), 10), List.mem_flatMap.2 ⟨n, List.mem_range.2 (by omega), ?_⟩, ?_⟩
        · unfold clearW; simp
        · rw [hkM]
    · rcases Nat.even_or_odd' r with ⟨n, rfl | rfl⟩
      · refine ⟨(((2 * n) * (g.M + 1) + k : Nat), 32), List.mem_flatMap.2 ⟨n, List.mem_range.2 (by omega), ?_⟩, rfl⟩
        unfold clearW
        refine List.mem_append_left _ (List.mem_flatMap.2 ⟨k, List.mem_range.2 (by omega), by simp⟩)
      · refine ⟨(((2 * n + 1) * (g.M + 1) + k : Nat), 32), List.mem_flatMap.2 ⟨n, List.mem_range.2 (by omega), ?_⟩, rfl⟩
        unfold clearW
        refine List.mem_append_left _ (List.mem_flatMap.2 ⟨k, List.mem_range.2 (by omega), by simp⟩)

/-- What the picture needs of a drawing. -/
structure Drawable (c : Ctx) (g : Graph) : Prop where
  vert : ∀ v ∈ verts g, VertexOk c g v
  apart : ∀ v ∈ verts g, ∀ w ∈ verts g, (c.VI v).pos = (c.VI w).pos → v = w
  edge : ∀ e ∈ edges g, 0 ≤ (c.E e).pos ∧ (c.E e).pos < g.M ∧ 0 ≤ (c.E e).start ∧ (c.E e).start ≤ (c.E e).stop ∧
    (c.E e).stop < g.N
  clear : ∀ e ∈ edges g, ∀ v ∈ verts g, ¬ ((c.E e).start < (c.VI v).pos ∧ (c.VI v).pos < (c.E e).stop ∧
    (c.VI v).start ≤ (c.E e).pos ∧ (c.E e).pos ≤ (c.VI v).stop)

theorem allW_range (hd : Drawable c g) (zero : Bool) : ∀ w ∈ allW zero c g, 0 ≤ w.1 ∧ w.1 < (((g.M + 1) * 2 * g.N + 1 : Nat) : Int) := by
  have key : ∀ r k : Int, 0 ≤ r → r < 2 * g.N → 0 ≤ k → k < g.M + 1 →
      0 ≤ r * (g.M + 1) + k ∧ r * (g.M + 1) + k < (((g.M + 1) * 2 * g.N + 1 : Nat) : Int) := by
    intro r k h1 h2 h3 h4
    push_cast
    constructor
    · positivity
    · have : (r + 1) * ((g.M : Int) + 1) ≤ (2 * g.N) * (g.M + 1) := by
        apply mul_le_mul_of_nonneg_right <;> omega
      nlinarith
  intro w hw
  unfold allW at hw
  rcases List.mem_append.1 hw with hw | hw
  · obtain ⟨n, hn, hw⟩ := List.mem_flatMap.1 hw
    have hn := List.mem_range.1 hn
    unfold clearW at hw
    simp only [List.mem_append, List.mem_flatMap, List.mem_range, List.mem_cons, List.not_mem_nil, or_false] at hw
    rcases hw with ⟨m, hm, rfl | rfl⟩ | rfl | rfl
    · have := key (2 * n) m (by omega) (by omega) (by omega) (by omega)
      push_cast at this ⊢; exact this
    · have := key (2 * n + 1) m (by omega) (by omega) (by omega) (by omega)
      push_cast at this ⊢; exact this
    · have := key (2 * n) g.M (by omega) (by omega) (by omega) (by omega)
      push_cast at this ⊢; exact this
    · have := key (2 * n + 1) g.M (by omega) (by omega) (by omega) (by omega)
      push_cast at this ⊢; exact this
  rcases List.mem_append.1 hw with hw | hw
  · obtain ⟨v, hv, hw⟩ := List.mem_flatMap.1 hw
    have hok := hd.vert v hv
    obtain ⟨t, h1, h2, h3, -⟩ := mem_vertexW hok hw
    rw [h1]
    by_cases ht : t < g.M + 1
    · exact key _ _ (by have := hok.1; omega) (by have := hok.2.1; omega) h2 ht
    · have := key (2 * (c.VI v).pos + 1) (t - (g.M + 1)) (by have := hok.1; omega) (by have := hok.2.1; omega) (by omega) (by omega)
      have e : (2 * (c.VI v).pos + 1) * ((g.M : Int) + 1) + (t - (g.M + 1)) = 2 * (c.VI v).pos * (g.M + 1) + t := by ring
      rwa [e] at this
  rcases List.mem_append.1 hw with hw | hw
  · obtain ⟨e, he, hw⟩ := List.mem_flatMap.1 hw
    obtain ⟨e1, e2, e3, e4, e5⟩ := hd.edge e he
    obtain ⟨r, h1, h2, rfl⟩ := (mem_edgeW e4).1 hw
    exact key _ _ (by omega) (by omega) e1 (by omega)
  · simp only [List.mem_cons, List.not_mem_nil, or_false] at hw
    subst hw
    push_cast
    constructor
    · positivity
    · omega

/-- The picture. -/
def pic (zero : Bool) (c : Ctx) (g : Graph) : Buf :=
  { size := (g.M + 1) * 2 * g.N + 1, at_ := fun i => (last (allW zero c g) i).or none }

theorem putL_pic (hd : Drawable c g) (zero : Bool) :
    putL { size := (g.M + 1) * 2 * g.N + 1 } (allW zero c g) = some (pic zero c g) :=
  putL_some _ _ (allW_range hd zero)

theorem pic_cell {zero : Bool} {r k : Nat} (hr : r < 2 * g.N) (hk : k ≤ g.M) :
    (pic zero c g).at_ (r * (g.M + 1) + k) = (last ((edges g).flatMap (edgeW c g.M)) (r * (g.M + 1) + k)).or
      ((last ((verts g).flatMap (vertexW zero c g.M)) (r * (g.M + 1) + k)).or (some (if k = g.M then 10 else 32))) := by
  show (last (allW zero c g) _).or none = _
  unfold allW
  rw [last_append, last_append, last_append, clear_last hr hk]
  have he : last [(((g.M : Int) + 1) * 2 * g.N, 0)] (r * (g.M + 1) + k) = none := by
    apply last_none
    intro w hw
    simp only [List.mem_cons, List.not_mem_nil, or_false] at hw
    subst hw
    intro hq
    have hq' : ((g.M : Int) + 1) * 2 * g.N = ((r * (g.M + 1) + k : Nat) : Int) := hq
    have : (2 * g.N : Int) * (g.M + 1) + 0 = r * (g.M + 1) + k := by push_cast at hq'; linarith
    have := cell_inj this (by omega) (by omega) (by omega) (by omega)
    omega
  rw [he]
  cases last ((edges g).flatMap (edgeW c g.M)) (r * (g.M + 1) + k) <;>
    cases last ((verts g).flatMap (vertexW zero c g.M)) (r * (g.M + 1) + k) <;> simp

/-- Which edges write to a cell. -/
theorem edge_cell (hd : Drawable c g) {e r k : Nat} (he : e ∈ edges g) (hk : k ≤ g.M) :
    (∃ w ∈ edgeW c g.M e, w.1 = ((r * (g.M + 1) + k : Nat) : Int)) ↔
      2 * (c.E e).start < r ∧ (r : Int) < 2 * (c.E e).stop ∧ (c.E e).pos = k := by
  obtain ⟨e1, e2, e3, e4, e5⟩ := hd.edge e he
  constructor
  · rintro ⟨w, hw, hq⟩
    obtain ⟨q, h1, h2, rfl⟩ := (mem_edgeW e4).1 hw
    have hq' : q * ((g.M : Int) + 1) + (c.E e).pos = r * (g.M + 1) + k := by
      have : q * ((g.M : Int) + 1) + (c.E e).pos = ((r * (g.M + 1) + k : Nat) : Int) := hq
      push_cast at this; exact this
    have := cell_inj hq' (by omega) (by omega) (by omega) (by omega)
    omega
  · rintro ⟨h1, h2, h3⟩
    refine ⟨_, (mem_edgeW e4).2 ⟨r, h1, h2, rfl⟩, ?_⟩
    push_cast
    rw [h3]

theorem edges_none (hd : Drawable c g) {r k : Nat} (hk : k ≤ g.M)
    (h : ∀ e ∈ edges g, ¬ (2 * (c.E e).start < r ∧ (r : Int) < 2 * (c.E e).stop ∧ (c.E e).pos = k)) :
    last ((edges g).flatMap (edgeW c g.M)) (r * (g.M + 1) + k) = none := by
  apply last_none
  intro w hw hq
  obtain ⟨e, he, hw⟩ := List.mem_flatMap.1 hw
  exact h e he ((edge_cell hd he hk).1 ⟨w, hw, hq⟩)

/-- A vertex writes to its own two rows, its newlines but for a label that runs over the end of the line. -/
theorem vertex_cell (hd : Drawable c g) {zero : Bool} {v r k : Nat} (hv : v ∈ verts g) (hk : k ≤ g.M) {w : Int × Nat}
    (hw : w ∈ vertexW zero c g.M v) (hq : w.1 = ((r * (g.M + 1) + k : Nat) : Int)) :
    ((r : Int) = 2 * (c.VI v).pos ∨ (r : Int) = 2 * (c.VI v).pos + 1 ∧ k < g.M) ∧
      (((r : Int) = 2 * (c.VI v).pos ∧ (c.VI v).start ≤ k ∧ (k : Int) ≤ (c.VI v).stop) ∨
      (wide (c.VI v) (label zero v) = true ∧ 2 * (c.VI v).pos * (g.M + 1) + vmid c v ≤ (r : Int) * (g.M + 1) + k ∧
        (r : Int) * (g.M + 1) + k < 2 * (c.VI v).pos * (g.M + 1) + vmid c v + (label zero v).length) ∨
      (wide (c.VI v) (label zero v) = false ∧ k = vmid c v)) := by
  have hok := hd.vert v hv
  obtain ⟨m1, m2, m3⟩ := mid_eq hok.2.2.1 hok.2.2.2.1
  have hstop := hok.2.2.2.2
  have hstart := hok.2.2.1
  obtain ⟨t, h1, h2, h3, h4⟩ := mem_vertexW hok hw
  rw [hq] at h1
  push_cast at h1
  by_cases ht : t < g.M + 1
  · have hc := cell_inj h1 (by omega) (by omega) h2 ht
    refine ⟨.inl hc.1, ?_⟩
    rcases h4 with h4 | h4 | h4
    · exact .inl ⟨hc.1, by omega, by omega⟩
    · exact .inr (.inl ⟨h4.1, by omega, by omega⟩)
    · refine .inr (.inr ⟨h4.1, by omega⟩)
  · have h1' : (r : Int) * (g.M + 1) + k = (2 * (c.VI v).pos + 1) * (g.M + 1) + (t - (g.M + 1)) := by rw [h1]; ring
    have hc := cell_inj h1' (by omega) (by omega) (by omega) (by omega)
    refine ⟨.inr ⟨hc.1, by omega⟩, ?_⟩
    rcases h4 with h4 | h4 | h4
    · exfalso; omega
    · exact .inr (.inl ⟨h4.1, by omega, by omega⟩)
    · exact .inr (.inr ⟨h4.1, by omega⟩)

theorem verts_last (hd : Drawable c g) {zero : Bool} {v r k : Nat} (hv : v ∈ verts g) (hk : k ≤ g.M)
    (hr : (r : Int) = 2 * (c.VI v).pos ∨ (r : Int) = 2 * (c.VI v).pos + 1) :
    last ((verts g).flatMap (vertexW zero c g.M)) (r * (g.M + 1) + k) = last (vertexW zero c g.M v) (r * (g.M + 1) + k) := by
  apply last_flatMap hv
  intro y hy hne w hw hq
  have := (vertex_cell hd hy hk hw hq).1
  exact hne (hd.apart y hy v hv (by omega))

theorem wide_iff {zero : Bool} {v : Nat} (hz : zero = decide (g.flags &&& 8 ≠ 0)) (h : (c.VI v).start ≤ (c.VI v).stop) :
    wide (c.VI v) (label zero v) = true ↔ Fits g c v := by
  have hl : label zero v = labelOf g v := by
    unfold label labelOf
    rw [hz]
    by_cases hf : g.flags &&& 8 ≠ 0 <;> simp [hf]
  rw [hl]
  unfold wide Fits vleft vright
  simp only [decide_eq_true_eq]
  omega

end
end Draw
end Verif
