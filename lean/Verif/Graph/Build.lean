import Verif.Props.Capacity
import Verif.Spec.Adjacency

/-
Adding edges one after the other: what the neighbour lists become.
-/
namespace Verif.Props
open Verif Verif.Graph

theorem mapM_some {α β} {f : α → Option β} {k : α → β} : ∀ {L : List α},
    (∀ x ∈ L, f x = some (k x)) → L.mapM f = some (L.map k)
  | [], _ => rfl
  | x :: L, h => by
    rw [List.mapM_cons, h x (by simp), mapM_some (fun y hy => h y (by simp [hy]))]
    rfl

theorem neighbors_of_hasList {g : Graph} {w : Nat} {L : List Nat} (h : HasList g w L)
    (hb : ∀ e ∈ L, e < g.eSize) : neighbors g w = some (L.map fun e => (g.E e).nbr) := by
  unfold neighbors
  rw [h.1]
  exact mapM_some (fun e he => getNbr_eq (hb e he))

theorem neighbors_eq {g rot} (h : Inv g rot) {w : Nat} (hw : w < g.vSize) :
    neighbors g w = some ((rot w).map fun e => (g.E e).nbr) :=
  neighbors_of_hasList (hasList h.links hw) (fun e he => (h.links.arc w e he).2)

/-- The list end a new edge goes to: link 0 the front, link 1 the back. -/
def insAt (l x : Nat) (L : List Nat) : List Nat := if l = 0 then x :: L else L ++ [x]

/-- Neighbour list of `w` after adding an edge between `u` and `v`. -/
def addNbr (u ul v vl w : Nat) (l : List Nat) : List Nat :=
  let l1 := if w = u then insAt ul v l else l
  if w = v then insAt vl u l1 else l1

theorem map_insAt (f : Nat → Nat) (l x L) : (insAt l x L).map f = insAt l (f x) (L.map f) := by
  unfold insAt; split <;> simp

theorem placed_insAt {l x : Nat} {L L' : List Nat} (h : Placed 0 l x L L') : L' = insAt l x L := by
  cases h with
  | front => rfl
  | back => rfl
  | after h => exact absurd rfl h
  | before h => exact absurd rfl h

theorem edgePlaced_neighbors {g g' : Graph} (hr : Reach g) (hr' : Reach g') {x u v ul vl : Nat}
    (hp : EdgePlaced g g' x u 0 ul v 0 vl) {w : Nat} (hw : IsVertex g w) {l : List Nat}
    (hl : neighbors g w = some l) : neighbors g' w = some (addNbr u ul v vl w l) := by
  obtain ⟨rot, h⟩ := hr.inv
  obtain ⟨rot', h'⟩ := hr'.inv
  obtain ⟨L, L1, L2, h1, h2, h3, h4⟩ := hp.lists w hw
  have hw1 := (vSize_iff.1 hw).2
  have hN := hp.count.2.1
  have hvs : g'.vSize = g.vSize := by simp [vSize, hN]
  have hL : L = rot w := by
    have := hasList h.links hw1
    have h5 := h1.1.symm.trans this.1
    simpa using h5
  have hL2 : L2 = rot' w := by
    have := hasList h'.links (hvs ▸ hw1)
    have h5 := h4.1.symm.trans this.1
    simpa using h5
  rw [neighbors_eq h hw1] at hl
  rw [neighbors_eq h' (hvs ▸ hw1), ← hL2]
  have hold : ∀ e ∈ L, (g'.E e).nbr = (g.E e).nbr := by
    intro e he
    have hb := (h.links.arc w e (hL ▸ he)).2
    have := hp.others e ((live_iff h).2 ⟨w, hL ▸ he⟩)
    rw [getNbr_eq hb, getNbr_eq (by have := hp.count.2.2.1; simp only [eSize] at *; omega)] at this
    simpa using this
  have hx : (g'.E x).nbr = v ∧ (g'.E (x ^^^ 1)).nbr = u := by
    have := hp.ends
    constructor
    · have := this.1
      simp only [getNbr, rdE] at this
      split at this <;> simp at this; exact this
    · have := this.2
      simp only [getNbr, rdE] at this
      split at this <;> simp at this; exact this
  have hmap : L.map (fun e => (g'.E e).nbr) = l := by
    rw [List.map_congr_left hold, hL]; simpa using hl
  congr 1
  unfold addNbr
  have h2' : L1 = if w = u then insAt ul x L else L := by
    split at h2
    · rename_i hh; rw [if_pos hh]; exact placed_insAt h2
    · rename_i hh; rw [if_neg hh]; exact h2
  have h3' : L2 = if w = v then insAt vl (x ^^^ 1) L1 else L1 := by
    split at h3
    · rename_i hh; rw [if_pos hh]; exact placed_insAt h3
    · rename_i hh; rw [if_neg hh]; exact h3
  have h2'' : L1.map (fun e => (g'.E e).nbr) = if w = u then insAt ul v l else l := by
    rw [h2']
    split
    · rw [map_insAt, hx.1, hmap]
    · exact hmap
  rw [h3']
  simp only
  rw [← h2'']
  split
  · rw [map_insAt, hx.2]
  · rfl

theorem edgePlaced_undirected {g g' : Graph} (hr : Reach g) (hr' : Reach g') {x u v ul vl : Nat}
    (hp : EdgePlaced g g' x u 0 ul v 0 vl) (hu : Undirected g) : Undirected g' := by
  obtain ⟨rot, h⟩ := hr.inv
  obtain ⟨rot', h'⟩ := hr'.inv
  intro e he
  have hfl := hp.sameFlags e
  obtain ⟨w, hw⟩ := (live_iff h').1 he
  have hb := (h'.links.arc w e hw).2
  have hes : g'.eSize = g.eSize := by simp [eSize, hp.count.2.2.1]
  by_cases hl : Live g e
  · have := hu e hl
    simp [getDirection, rdE, hb, hes ▸ hb, hfl] at this ⊢
    exact this
  · have : g.E e = {} := h.zero e (fun v hv => hl ((live_iff h).2 ⟨v, hv⟩))
    simp [getDirection, rdE, hb, hfl, this]

theorem sameObs_neighbors {g d : Graph} (hr : Reach g) (hr' : Reach d) (h : SameObs g d) {w : Nat}
    (hw : IsVertex g w) : neighbors d w = neighbors g w := by
  obtain ⟨rot, hI⟩ := hr.inv
  obtain ⟨rot', hI'⟩ := hr'.inv
  obtain ⟨L, h1, h2⟩ := h.lists w hw
  unfold neighbors
  rw [h1.1, h2.1]
  have hL : L = rot w := by
    have := h1.1.symm.trans (hasList hI.links (vSize_iff.1 hw).2).1
    simpa using this
  have hLd : L = rot' w := by
    have := h2.1.symm.trans (hasList hI'.links (by have := (vSize_iff.1 hw).2; simp only [vSize, h.size.1] at *; exact this)).1
    simpa using this
  show L.mapM d.getNbr = L.mapM g.getNbr
  rw [mapM_some (k := fun e => (g.E e).nbr) (f := g.getNbr) (fun e he => getNbr_eq ((hI.links.arc w e (hL ▸ he)).2))]
  refine mapM_some fun e he => ?_
  rw [(h.arcs e ((live_iff hI).2 ⟨w, hL ▸ he⟩)).1]
  exact getNbr_eq ((hI.links.arc w e (hL ▸ he)).2)

theorem sameObs_undirected {g d : Graph} (hr : Reach g) (hr' : Reach d) (h : SameObs g d)
    (hu : Undirected g) : Undirected d := by
  obtain ⟨rot, hI⟩ := hr.inv
  obtain ⟨rot', hI'⟩ := hr'.inv
  intro e he
  obtain ⟨w, hw⟩ := (live_iff hI').1 he
  have hvw := hI'.links.vert w e hw
  have hvs : d.vSize = g.vSize := by simp [vSize, h.size.1]
  obtain ⟨L, h1, h2⟩ := h.lists w (vSize_iff.2 (hvs ▸ hvw))
  have hL : L = rot w := by
    have := h1.1.symm.trans (hasList hI.links (hvs ▸ hvw.2)).1
    simpa using this
  have hLd : L = rot' w := by
    have := h2.1.symm.trans (hasList hI'.links hvw.2).1
    simpa using this
  have hg : Live g e := (live_iff hI).2 ⟨w, by rw [← hL, hLd]; exact hw⟩
  rw [(h.arcs e hg).2.1]; exact hu e hg

/-- One gp_DynamicAddEdge with room for one more edge. -/
theorem dynamicAdd_step {g : Graph} (hr : Reach g) {u v ul vl : Nat} (hu : IsVertex g u)
    (hv : IsVertex g v) (hul : ul ≤ 1) (hvl : vl ≤ 1) (h6 : 6 ≤ g.arcCap)
    (hM : 2 * (g.M : Int) < (g.N : Int) * ((g.N : Int) - 1)) :
    ∃ g', g.dynamicAddEdge u ul v vl {} = some (g', .ok) ∧ Reach g' ∧ g'.N = g.N ∧
      g'.M = g.M + 1 ∧ 6 ≤ g'.arcCap ∧ g'.flags = g.flags ∧
      (∀ w l, IsVertex g w → neighbors g w = some l →
        neighbors g' w = some (addNbr u ul v vl w l)) ∧ (Undirected g → Undirected g') := by
  obtain ⟨g1, g', x, h1, h2, h3, h4, h5, h1r⟩ :
      ∃ g1 g' x, g.dynamicAddEdge u ul v vl {} = some (g', .ok) ∧ SameObs g g1 ∧
      g.arcCap ≤ g1.arcCap ∧ EdgePlaced g1 g' x u 0 ul v 0 vl ∧ Reach g' ∧ Reach g1 := by
    exact C13_dynamicAdd_reach hr hu hv hul hvl h6 hM
  have hw1 : ∀ w, IsVertex g w → IsVertex g1 w := by
    intro w hw; unfold IsVertex at *; rw [h2.size.1]; exact hw
  refine ⟨g', h1, h5, by rw [h4.count.2.1, h2.size.1], by rw [h4.count.1, h2.size.2.1],
    by rw [h4.count.2.2.1]; omega, by rw [h4.count.2.2.2.1, h2.size.2.2.1], ?_, ?_⟩
  · intro w l hw hl
    exact edgePlaced_neighbors h1r h5 h4 (hw1 w hw) (by rw [sameObs_neighbors hr h1r h2 hw]; exact hl)
  · intro hU
    exact edgePlaced_undirected h1r h5 h4 (sameObs_undirected hr h1r h2 hU)

/-- The endpoint list of one more edge, both ends put in front. -/
def addFront (w : Nat) (l : List Nat) (p : Nat × Nat) : List Nat := addNbr p.1 0 p.2 0 w l

theorem addFront_mem {w : Nat} {l : List Nat} {p : Nat × Nat} (x : Nat) :
    x ∈ addFront w l p ↔ (x ∈ l ∨ p = (w, x) ∨ p = (x, w)) := by
  obtain ⟨a, b⟩ := p
  unfold addFront addNbr insAt
  by_cases h1 : w = a <;> by_cases h2 : w = b <;> simp [h1, h2] <;> grind

theorem foldl_addFront_mem {w : Nat} (x : Nat) : ∀ (ps : List (Nat × Nat)) (l : List Nat),
    x ∈ ps.foldl (addFront w) l ↔ (x ∈ l ∨ (w, x) ∈ ps ∨ (x, w) ∈ ps)
  | [], l => by simp
  | p :: ps, l => by
    rw [List.foldl_cons, foldl_addFront_mem x ps, addFront_mem]
    simp only [List.mem_cons]
    grind

/-- A list of distinct pairs, smaller end first, gives neighbour lists without repetition. -/
theorem foldl_addFront_nodup {w : Nat} : ∀ (ps : List (Nat × Nat)) (l : List Nat), l.Nodup →
    ps.Nodup → (∀ p ∈ ps, p.1 < p.2) → (∀ x ∈ l, (w, x) ∉ ps ∧ (x, w) ∉ ps) →
    (ps.foldl (addFront w) l).Nodup
  | [], l, h, _, _, _ => h
  | (a, b) :: ps, l, h, hn, hlt, hd => by
    rw [List.foldl_cons]
    have hab : a < b := hlt (a, b) (by simp)
    have hn' := List.nodup_cons.1 hn
    refine foldl_addFront_nodup ps _ ?_ hn'.2 (fun p hp => hlt p (by simp [hp])) ?_
    · unfold addFront addNbr insAt
      by_cases h1 : w = a
      · have h2 : w ≠ b := by omega
        subst h1
        simp only [h2, if_true, if_false]
        refine List.nodup_cons.2 ⟨fun hb => (hd b hb).1 (by simp), h⟩
      · by_cases h2 : w = b
        · subst h2
          simp only [h1, if_true, if_false]
          refine List.nodup_cons.2 ⟨fun hb => (hd a hb).2 (by simp), h⟩
        · simpa [h1, h2] using h
    · intro x hx
      rw [addFront_mem] at hx
      rcases hx with hx | hx | hx
      · have := hd x hx
        simp only [List.mem_cons, not_or] at this
        exact ⟨this.1.2, this.2.2⟩
      · cases hx
        refine ⟨hn'.1, fun hc => ?_⟩
        have := hlt _ (List.mem_cons_of_mem _ hc)
        simp only at this; omega
      · cases hx
        refine ⟨fun hc => ?_, hn'.1⟩
        have := hlt _ (List.mem_cons_of_mem _ hc)
        simp only at this; omega

/-- gp_DynamicAddEdge for a list of endpoint pairs, stopping at the first failure. -/
def addAll (g : Graph) : List (Nat × Nat) → Option (Graph × Res)
  | [] => some (g, .ok)
  | p :: ps => do
    let (g, r) ← g.dynamicAddEdge (p.1 : Nat) 0 (p.2 : Nat) 0 {}
    if r ≠ .ok then some (g, r) else addAll g ps

theorem addAll_spec : ∀ (ps : List (Nat × Nat)) {g : Graph}, Reach g → 6 ≤ g.arcCap →
    (∀ p ∈ ps, IsVertex g p.1 ∧ IsVertex g p.2) → g.M + ps.length ≤ g.N * (g.N - 1) / 2 →
    ∃ g', addAll g ps = some (g', .ok) ∧ Reach g' ∧ g'.N = g.N ∧ g'.M = g.M + ps.length ∧
      6 ≤ g'.arcCap ∧ g'.flags = g.flags ∧
      (∀ w l, IsVertex g w → neighbors g w = some l →
        neighbors g' w = some (ps.foldl (addFront w) l)) ∧ (Undirected g → Undirected g')
  | [], g, hr, h6, _, _ => ⟨g, rfl, hr, rfl, rfl, h6, rfl, fun _ _ _ h => h, id⟩
  | p :: ps, g, hr, h6, hv, hM => by
    obtain ⟨hu, hw⟩ := hv p (by simp)
    simp only [List.length_cons] at hM
    have hM' : 2 * (g.M : Int) < (g.N : Int) * ((g.N : Int) - 1) := by
      have hN : 1 ≤ g.N := by
        unfold IsVertex at hu; omega
      have : 2 * g.M < g.N * (g.N - 1) := by omega
      have h2 : ((g.N * (g.N - 1) : Nat) : Int) = (g.N : Int) * ((g.N : Int) - 1) := by
        rw [Int.natCast_mul, Int.natCast_sub hN]; rfl
      omega
    obtain ⟨g1, h1, hr1, hN1, hM1, h61, hf1, hn1, hU1⟩ :=
      dynamicAdd_step hr hu hw (ul := 0) (vl := 0) (by omega) (by omega) h6 hM'
    have hiv : ∀ w, IsVertex g w → IsVertex g1 w := by
      intro w h; unfold IsVertex at *; rw [hN1]; exact h
    obtain ⟨g', h2, hr2, hN2, hM2, h62, hf2, hn2, hU2⟩ := addAll_spec ps hr1 h61
      (fun q hq => ⟨hiv _ (hv q (by simp [hq])).1, hiv _ (hv q (by simp [hq])).2⟩) (by rw [hM1, hN1]; omega)
    refine ⟨g', ?_, hr2, by rw [hN2, hN1], by rw [hM2, hM1, List.length_cons]; omega, h62,
      by rw [hf2, hf1], ?_, fun h => hU2 (hU1 h)⟩
    · simp only [addAll, h1, Option.bind_eq_bind, Option.bind_some, ne_eq, not_true, if_false]
      exact h2
    · intro w l hw' hl
      rw [List.foldl_cons]
      exact hn2 w _ (hiv w hw') (hn1 w l hw' hl)

/-- The same neighbour lists up to order make the same graph: the number of edges agrees. -/
theorem sameGraph_of {g g' : Graph} (hr : Reach g) (hr' : Reach g') (hN : g'.N = g.N)
    (h : ∀ w, IsVertex g w → ∃ l l', neighbors g w = some l ∧ neighbors g' w = some l' ∧ l'.Perm l) :
    SameGraph g g' := by
  refine ⟨hN, ?_, h⟩
  obtain ⟨rot, hI⟩ := hr.inv
  obtain ⟨rot', hI'⟩ := hr'.inv
  have h1 := hI.count
  have h2 := hI'.count
  have hvs : g'.vSize = g.vSize := by simp [vSize, hN]
  have z : ∀ {g : Graph} {rot}, Inv g rot → rot 0 = [] := by
    intro g rot h
    apply List.eq_nil_iff_forall_not_mem.2
    intro e he
    have := (h.links.vert _ _ he).1; omega
  have : (List.range g'.vSize).map (fun w => (rot' w).length) = (List.range g.vSize).map fun w => (rot w).length := by
    rw [hvs]
    refine List.map_congr_left fun w hw => ?_
    rw [List.mem_range] at hw
    by_cases h0 : w = 0
    · rw [h0, z hI, z hI']
    · obtain ⟨l, l', e1, e2, hp⟩ := h w (vSize_iff.2 ⟨by omega, hw⟩)
      rw [neighbors_eq hI hw] at e1
      rw [neighbors_eq hI' (hvs ▸ hw)] at e2
      cases e1; cases e2
      simpa using hp.length_eq
  rw [allArcs, List.length_flatMap] at h1 h2
  rw [this] at h2
  omega

end Verif.Props
