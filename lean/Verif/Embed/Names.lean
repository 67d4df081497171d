import Verif.Test.Embedding

/-
What renaming the vertices leaves unchanged: plane embeddings, faces that meet all vertices, subdivisions.
-/
namespace Verif.Embed
open Verif Verif.Graph Verif.DFS Verif.Props

/-- `t'` is `t` with every vertex `u` renamed to `σ u`. -/
structure Moved (t t' : PGraph) (rt rt' : Nat → List Nat) (σ τ : Nat → Nat) : Prop where
  inv : PInv t rt
  inv' : PInv t' rt'
  N : t'.g.N = t.g.N
  M : t'.g.M = t.g.M
  out : ∀ u, IsPrimary t u → IsPrimary t (σ u) ∧ τ (σ u) = u
  back : ∀ a, IsPrimary t a → IsPrimary t (τ a) ∧ σ (τ a) = a
  rot : ∀ u, IsPrimary t u → rt' (σ u) = rt u
  nbr : ∀ u e, e ∈ rt u → (t'.g.E e).nbr = σ (t.g.E e).nbr

namespace Moved
variable {t t' : PGraph} {rt rt' : Nat → List Nat} {σ τ : Nat → Nat}

theorem prim' (m : Moved t t' rt rt' σ τ) {u : Nat} : IsPrimary t' u ↔ IsPrimary t u := by
  unfold IsPrimary; rw [m.N]

theorem head (m : Moved t t' rt rt' σ τ) {u e : Nat} (he : e ∈ rt u) : IsPrimary t (t.g.E e).nbr :=
  m.inv.prim _ _ (m.inv.inv.twins u e he)

theorem src (m : Moved t t' rt rt' σ τ) {u e : Nat} (he : e ∈ rt u) : IsPrimary t u := m.inv.prim _ _ he

theorem rot' (m : Moved t t' rt rt' σ τ) {a : Nat} (ha : IsPrimary t a) : rt' a = rt (τ a) := by
  obtain ⟨h1, h2⟩ := m.back a ha
  rw [← m.rot _ h1, h2]

theorem rotv (m : Moved t t' rt rt' σ τ) {a : Nat} (ha : ¬ IsPrimary t a) : rt' a = [] ∧ rt a = [] := by
  constructor
  · exact List.eq_nil_iff_forall_not_mem.2 fun e he => ha (m.prim'.1 (m.inv'.prim _ _ he))
  · exact List.eq_nil_iff_forall_not_mem.2 fun e he => ha (m.inv.prim _ _ he)

theorem flip (m : Moved t t' rt rt' σ τ) : Moved t' t rt' rt τ σ := by
  refine ⟨m.inv', m.inv, m.N.symm, m.M.symm, fun u hu => ?_, fun u hu => ?_, fun u hu => ?_, fun u e he => ?_⟩
  · rw [m.prim']; exact m.back u (m.prim'.1 hu)
  · rw [m.prim']; exact m.out u (m.prim'.1 hu)
  · exact (m.rot' (m.prim'.1 hu)).symm
  · have hu := m.prim'.1 (m.inv'.prim _ _ he)
    rw [m.rot' hu] at he
    rw [m.nbr _ _ he, (m.out _ (m.head he)).2]

theorem live (m : Moved t t' rt rt' σ τ) {e : Nat} (h : Live t.g e) : Live t'.g e := by
  obtain ⟨w, hw⟩ := (live_iff m.inv.inv).1 h
  exact (live_iff m.inv'.inv).2 ⟨σ w, by rw [m.rot _ (m.src hw)]; exact hw⟩

theorem arcAt (m : Moved t t' rt rt' σ τ) {v e : Nat} (h : t.g.ArcAt v e) : t'.g.ArcAt (σ v) e := by
  have h := m.inv.inv.arcAt.1 h
  exact m.inv'.inv.arcAt.2 (by rw [m.rot _ (m.src h)]; exact h)

theorem arcTo (m : Moved t t' rt rt' σ τ) {u e w : Nat} (h : ArcTo t.g u e w) : ArcTo t'.g (σ u) e (σ w) := by
  obtain ⟨h1, rfl⟩ := (arcTo_iff m.inv.inv).1 h
  exact (arcTo_iff m.inv'.inv).2 ⟨by rw [m.rot _ (m.src h1)]; exact h1, m.nbr _ _ h1⟩

theorem joined (m : Moved t t' rt rt' σ τ) {u w : Nat} (h : Joined t.g u w) : Joined t'.g (σ u) (σ w) := by
  induction h with
  | refl => exact .refl _
  | step _ ha ih => exact .step ih (m.arcTo ha)

theorem adjacent (m : Moved t t' rt rt' σ τ) {u w : Nat} (h : Adjacent t.g u w) : Adjacent t'.g (σ u) (σ w) := by
  obtain ⟨e, he⟩ := (adjacent_arc m.inv.inv).1 h
  exact (adjacent_arc m.inv'.inv).2 ⟨e, m.arcTo he⟩

theorem follows_mem {L : List Nat} {a b : Nat} (h : Follows L a b) : b ∈ L := by
  rcases h with ⟨A, B, rfl⟩ | ⟨-, h⟩
  · simp
  · exact List.mem_of_head? h

theorem faceStep (m : Moved t t' rt rt' σ τ) {a b : Nat} (h : FaceStep t.g a b) : FaceStep t'.g a b := by
  obtain ⟨v, L, hv, hL, hf⟩ := h
  obtain rfl := (hasList_eq m.inv.inv hv).1 hL
  have hp := m.src (follows_mem hf)
  have hq := (m.out v hp).1
  have hv' : IsVertex t'.g (σ v) := ⟨hq.1, by rw [m.N]; have := hq.2; omega⟩
  exact ⟨σ v, rt v, hv', (hasList_eq m.inv'.inv hv').2 (m.rot v hp).symm, hf⟩

theorem sameFace (m : Moved t t' rt rt' σ τ) {a b : Nat} (h : SameFace t.g a b) : SameFace t'.g a b := by
  induction h with
  | refl => exact .refl _
  | step _ ha ih => exact .step ih (m.faceStep ha)

theorem joined_iff (m : Moved t t' rt rt' σ τ) {u w : Nat} (hu : IsPrimary t u) (hw : IsPrimary t w) :
    Joined t'.g (σ u) (σ w) ↔ Joined t.g u w := by
  refine ⟨fun h => ?_, m.joined⟩
  have := m.flip.joined h
  rwa [(m.out u hu).2, (m.out w hw).2] at this

theorem transversal (m : Moved t t' rt rt' σ τ) {d d' : Nat → Prop} {C : List Nat} (hd : ∀ u, d u → IsPrimary t u)
    (hd' : ∀ u, d' u → IsPrimary t u) (hdd : ∀ u, IsPrimary t u → (d' (σ u) ↔ d u)) (h : Transversal d (Joined t.g) C) :
    Transversal d' (Joined t'.g) (C.map σ) := by
  refine ⟨?_, ?_, ?_⟩
  · intro x hx
    obtain ⟨u, hu, rfl⟩ := List.mem_map.1 hx
    have := h.mem u hu
    exact (hdd u (hd u this)).2 this
  · rw [List.pairwise_map]
    refine h.apart.imp_of_mem fun {a b} ha hb hn => ?_
    rwa [m.joined_iff (hd a (h.mem a ha)) (hd b (h.mem b hb))]
  · intro x hx
    obtain ⟨h1, h2⟩ := m.back x (hd' x hx)
    obtain ⟨a, ha, hj⟩ := h.all (τ x) ((hdd _ h1).1 (by rwa [h2]))
    refine ⟨σ a, List.mem_map.2 ⟨a, ha, rfl⟩, ?_⟩
    have := m.joined hj
    rwa [h2] at this

theorem has_adjacent (m : Moved t t' rt rt' σ τ) {u : Nat} (hu : IsPrimary t u) :
    (∃ w, Adjacent t'.g (σ u) w) ↔ ∃ w, Adjacent t.g u w := by
  constructor
  · rintro ⟨w, h⟩
    have := m.flip.adjacent h
    rw [(m.out u hu).2] at this
    exact ⟨_, this⟩
  · rintro ⟨w, h⟩
    exact ⟨_, m.adjacent h⟩

theorem plane (m : Moved t t' rt rt' σ τ) (h : PlaneEmbedding t) : PlaneEmbedding t' := by
  obtain ⟨F, C, D, ⟨hF, hC, hD⟩, hn⟩ := h
  refine ⟨F, C.map σ, D.map σ, ⟨?_, ?_, ?_⟩, by rw [List.length_map, List.length_map, m.N, m.M]; exact hn⟩
  · refine ⟨fun x hx => m.live (hF.mem x hx), hF.apart.imp fun hn h => hn (m.flip.sameFace h), fun x hx => ?_⟩
    obtain ⟨a, ha, hs⟩ := hF.all x (m.flip.live hx)
    exact ⟨a, ha, m.sameFace hs⟩
  · exact m.transversal (fun u h => h) (fun u h => m.prim'.1 h)
      (fun u hu => by rw [m.prim']; exact ⟨fun _ => hu, fun _ => (m.out u hu).1⟩) hC
  · refine m.transversal (fun u h => h.1) (fun u h => m.prim'.1 h.1) (fun u hu => ?_) hD
    rw [m.prim', m.has_adjacent hu]
    exact ⟨fun h => ⟨hu, h.2⟩, fun h => ⟨(m.out u hu).1, h.2⟩⟩

theorem oneFace (m : Moved t t' rt rt' σ τ) (h : OneFace t) : OneFace t' := by
  intro u hu ha
  have hu := m.prim'.1 hu
  obtain ⟨h1, h2⟩ := m.back u hu
  obtain ⟨a, hl, hj⟩ := h (τ u) h1 ((m.has_adjacent h1).1 (by rwa [h2]))
  refine ⟨a, m.live hl, fun v hv => ?_⟩
  obtain ⟨b, hb, hc⟩ := hj (τ v) (m.flip.joined hv)
  refine ⟨b, m.sameFace hb, ?_⟩
  have hp := m.src (m.inv.inv.arcAt.1 hc)
  have := m.arcAt hc
  have hvp : IsPrimary t v := by
    cases hv with
    | refl => exact hu
    | step _ hx =>
      obtain ⟨k1, rfl⟩ := (arcTo_iff m.inv'.inv).1 hx
      exact m.prim'.1 (m.flip.head k1)
  rwa [(m.back v hvp).2] at this

/-- The neighbours of a vertex are renamed. -/
theorem neighbors (m : Moved t t' rt rt' σ τ) {u : Nat} (hu : IsPrimary t u) :
    Props.neighbors t'.g (σ u) = (Props.neighbors t.g u).map (List.map σ) := by
  have hq := (m.out u hu).1
  rw [neighbors_eq m.inv'.inv (w := σ u) (by unfold vSize; rw [m.N]; have := hq.2; omega),
    neighbors_eq m.inv.inv (w := u) (by unfold vSize; have := hu.2; omega), m.rot u hu, Option.map_some, List.map_map]
  exact congrArg some (List.map_congr_left fun e he => m.nbr u e he)

theorem links_map (f : Nat → Nat) (l : List Nat) : links (l.map f) = (links l).map fun p => (f p.1, f p.2) := by
  unfold links
  rw [← List.map_tail, List.zip_map]
  rfl

theorem links_sub {l : List Nat} {p : Nat × Nat} (h : p ∈ links l) : p.1 ∈ l ∧ p.2 ∈ l := by
  unfold links at h
  have := List.of_mem_zip (a := p.1) (b := p.2) h
  exact ⟨this.1, List.mem_of_mem_tail this.2⟩

theorem steps_map (f branch : Nat → Nat) (path : Nat × Nat → List Nat) (E : List (Nat × Nat)) :
    steps (fun i => f (branch i)) (fun p => (path p).map f) E = (steps branch path E).map fun p => (f p.1, f p.2) := by
  unfold steps
  rw [List.map_flatMap]
  congr 1
  funext p
  rw [← links_map]
  simp

theorem steps_sub {branch : Nat → Nat} {path : Nat × Nat → List Nat} {n : Nat} {E : List (Nat × Nat)}
    (hE : ∀ p ∈ E, p.1 < n ∧ p.2 < n) {q : Nat × Nat} (h : q ∈ steps branch path E) :
    q.1 ∈ (List.range n).map branch ++ E.flatMap path ∧ q.2 ∈ (List.range n).map branch ++ E.flatMap path := by
  unfold steps at h
  obtain ⟨p, hp, hq⟩ := List.mem_flatMap.1 h
  have hh : ∀ x ∈ branch p.1 :: path p ++ [branch p.2], x ∈ (List.range n).map branch ++ E.flatMap path := by
    intro x hx
    simp only [List.cons_append, List.mem_cons, List.mem_append, List.not_mem_nil, or_false] at hx
    rcases hx with rfl | hx | rfl
    · exact List.mem_append_left _ (List.mem_map.2 ⟨_, List.mem_range.2 (hE p hp).1, rfl⟩)
    · exact List.mem_append_right _ (List.mem_flatMap.2 ⟨p, hp, hx⟩)
    · exact List.mem_append_left _ (List.mem_map.2 ⟨_, List.mem_range.2 (hE p hp).2, rfl⟩)
  exact ⟨hh _ (links_sub hq).1, hh _ (links_sub hq).2⟩

theorem around_map {f : Nat → Nat} {P : Nat → Prop} (hf : ∀ a b, P a → P b → f a = f b → a = b) {st : List (Nat × Nat)}
    (hst : ∀ p ∈ st, P p.1 ∧ P p.2) {w : Nat} (hw : P w) :
    around (st.map fun p => (f p.1, f p.2)) (f w) = (around st w).map f := by
  unfold around
  rw [List.filter_map, List.filter_map, List.map_append, List.map_map, List.map_map, List.map_map, List.map_map]
  congr 1
  · rw [List.filter_congr (q := fun p => decide (p.1 = w))]
    · rfl
    · intro p hp
      show decide (f p.1 = f w) = decide (p.1 = w)
      rw [decide_eq_decide]
      exact ⟨hf _ _ (hst p hp).1 hw, fun h => by rw [h]⟩
  · rw [List.filter_congr (q := fun p => decide (p.2 = w))]
    · rfl
    · intro p hp
      show decide (f p.2 = f w) = decide (p.2 = w)
      rw [decide_eq_decide]
      exact ⟨hf _ _ (hst p hp).2 hw, fun h => by rw [h]⟩

theorem subdivision (m : Moved t t' rt rt' σ τ) {n : Nat} {E : List (Nat × Nat)} (hE : ∀ p ∈ E, p.1 < n ∧ p.2 < n)
    (h : IsSubdivision t.g n E) : IsSubdivision t'.g n E := by
  obtain ⟨branch, path, h1, h2, h3⟩ := h
  have hm : (List.range n).map (fun i => σ (branch i)) ++ E.flatMap (fun p => (path p).map σ) =
      ((List.range n).map branch ++ E.flatMap path).map σ := by
    rw [List.map_append, List.map_map, List.map_flatMap]; rfl
  have hinj : ∀ a b, IsPrimary t a → IsPrimary t b → σ a = σ b → a = b := by
    intro a b ha hb h
    rw [← (m.out a ha).2, h, (m.out b hb).2]
  refine ⟨fun i => σ (branch i), fun p => (path p).map σ, ?_, ?_, ?_⟩
  · rw [hm]
    exact h1.map_on fun a ha b hb h => hinj a b (h2 a ha) (h2 b hb) h
  · rw [hm]
    intro w hw
    obtain ⟨a, ha, rfl⟩ := List.mem_map.1 hw
    exact m.prim'.2 (m.out a (h2 a ha)).1
  · intro w hw
    rw [steps_map]
    by_cases hp : IsPrimary t w
    · obtain ⟨k1, k2⟩ := m.back w hp
      obtain ⟨l, hl, hq⟩ := h3 (τ w) ⟨k1.1, by have := k1.2; omega⟩
      have hn := m.neighbors k1
      rw [k2, hl] at hn
      refine ⟨l.map σ, hn, ?_⟩
      have := around_map hinj (fun p hp => ⟨h2 _ (steps_sub hE hp).1, h2 _ (steps_sub hE hp).2⟩) k1
      rw [k2] at this
      rw [this]
      exact hq.map σ
    · refine ⟨[], ?_, ?_⟩
      · rw [neighbors_eq m.inv'.inv (vSize_iff.1 hw).2, (m.rotv hp).1]; rfl
      · have hs : ∀ q ∈ (steps branch path E).map (fun p => (σ p.1, σ p.2)), IsPrimary t q.1 ∧ IsPrimary t q.2 := by
          intro q hq
          obtain ⟨p, hp, rfl⟩ := List.mem_map.1 hq
          exact ⟨(m.out _ (h2 _ (steps_sub hE hp).1)).1, (m.out _ (h2 _ (steps_sub hE hp).2)).1⟩
        unfold around
        rw [List.filter_eq_nil_iff.2, List.filter_eq_nil_iff.2]
        · exact .refl _
        · intro q hq h
          rw [decide_eq_true_eq] at h
          exact hp (h ▸ (hs q hq).2)
        · intro q hq h
          rw [decide_eq_true_eq] at h
          exact hp (h ▸ (hs q hq).1)

/-- Sorting the vertices renames them. -/
theorem of_sort {s : PGraph} {rot} (hI : PInv s rot) (hn : s.g.dfsNumbered = true) :
    ∃ s' rot' τ, s.sortVertices = some (s', .ok) ∧ Moved s s' rot rot' (fun u => (s.g.V u).index) τ ∧ s'.g.sortedByDfi = !s.g.sortedByDfi := by
  obtain ⟨inv, hnum, h1, h2, h3, -, h4⟩ := sort_ok hI hn
  refine ⟨_, _, inv, h1, ⟨hI, h2, h3.order, h3.edges, fun u hu => ?_, fun a ha => ?_, fun u hu => ?_, fun u e he => ?_⟩, h4⟩
  · obtain ⟨k1, k2, k3⟩ := hnum.out u hu.1 hu.2
    exact ⟨⟨k1, k2⟩, k3⟩
  · obtain ⟨k1, k2, k3⟩ := hnum.back a ha.1 ha.2
    exact ⟨⟨k1, k2⟩, k3⟩
  · obtain ⟨k1, k2, k3⟩ := hnum.out u hu.1 hu.2
    unfold sortRot
    rw [if_pos ⟨k1, k2⟩, k3]
  · have := h3.heads u e _ ((arcTo_iff hI.inv).2 ⟨he, rfl⟩)
    exact ((arcTo_iff h2.inv).1 this).2

end Moved
end Verif.Embed
