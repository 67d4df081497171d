import Verif.Draw.Ranges
import Verif.Draw.Place
import Verif.Draw.Check
import Verif.Test.Embedding

/-
The drawing as a whole.
-/
namespace Verif
namespace Draw
open Graph Props LC DFS PGraph

variable {s : PGraph} {rot : Nat → List Nat} {par : Nat → Nat}

theorem pinv_ws (hp : PInv s rot) (stk : List Nat) : PInv (ws s stk) rot where
  inv := hp.inv.congr rfl rfl rfl rfl rfl (fun _ b => by cases b <;> rfl) (fun _ _ => rfl) (fun _ => rfl) (fun _ _ => rfl)
  prim := hp.prim
  cap := hp.cap
  cap' := hp.cap'
  fresh := hp.fresh
  numbered := fun h => ⟨(hp.numbered h).1.imp fun _ k => ⟨k.out, k.back⟩, (hp.numbered h).2⟩
  unsorted := hp.unsorted

theorem arcTo_ws (hp : PInv s rot) (stk : List Nat) {u e w : Nat} : ArcTo (ws s stk).g u e w ↔ ArcTo s.g u e w := by
  rw [arcTo_iff (pinv_ws hp stk).inv, arcTo_iff hp.inv]; rfl

theorem joined_ws (hp : PInv s rot) (stk : List Nat) {a b : Nat} : Joined (ws s stk).g a b ↔ Joined s.g a b := by
  constructor
  · intro hj
    induction hj with
    | refl => exact .refl _
    | step _ ha ih => exact .step ih ((arcTo_ws hp stk).1 ha)
  · intro hj
    induction hj with
    | refl => exact .refl _
    | step _ ha ih => exact .step ih ((arcTo_ws hp stk).2 ha)

theorem forest_ws {num : Nat → Nat} (h : PInv s rot) (hF : Forest s num par) (stk : List Nat) : Forest (ws s stk) num par := by
  constructor
  · exact hF.parent
  · exact hF.range
  · exact hF.inj
  · intro u hu hne
    obtain ⟨h1, h2, e, ⟨h3, h4⟩, h5⟩ := hF.up u hu hne
    exact ⟨h1, h2, e, ⟨(arcTo_ws h stk).2 h3, h4⟩, fun e' ha => h5 e' ((arcTo_ws h stk).1 ha)⟩
  · intro u hu
    obtain ⟨r, ⟨h1, h2, h3⟩, h4⟩ := hF.root u hu
    exact ⟨r, ⟨h1, h2, (joined_ws h stk).2 h3⟩, fun r' h5 h6 h7 => h4 r' h5 h6 ((joined_ws h stk).1 h7)⟩
  · intro u e w ha; exact hF.ends u e w ((arcTo_ws h stk).1 ha)
  · intro u e w ha; exact hF.related u e w ((arcTo_ws h stk).1 ha)
  · intro u e w ha; exact hF.types u e w ((arcTo_ws h stk).1 ha)
  · exact hF.consecutive

/-- Rows as computed, for a graph without free slots and loops: the rest of the computation. -/
theorem rest_spec (hp : PInv s rot) (hF : Forest s id par) (hl : NoLoops s.g) (hh : s.g.holes = []) {c : Ctx}
    (hR : RowsFilled s.g.N c)
    (hroot : ∀ v y, IsPrimary s v → par v = 0 → IsPrimary s y → AncEq par v y → (c.VI v).pos ≤ (c.VI y).pos) :
    ∃ res, computeCols s c = some res ∧ ((res = none ∧ ¬ AllHang s par c) ∨ (AllHang s par c ∧ ∃ c1 c2 c', res = some c1 ∧
      computeVertexRanges s.g c1 = some c2 ∧ computeEdgeRanges s.g c2 = some c' ∧ Layout s.g c' ∧
      ∀ v, c'.VI v = { c.VI v with start := (c'.VI v).start, stop := (c'.VI v).stop })) := by
  have hloop : ∀ u e, e ∈ rot u → (s.g.E e).nbr ≠ u := fun u e he hq =>
    hl u ((adjacent_arc hp.inv).2 ⟨e, (arcTo_iff hp.inv).2 ⟨he, hq⟩⟩)
  have hdown : ∀ v, (∃ u e, Down s rot c u e ∧ (s.g.E e).nbr = v) ↔ ∃ u e, ArcTo s.g u e v ∧ vrow c u < vrow c v := by
    intro v
    constructor
    · rintro ⟨u, e, ⟨he, hlt⟩, rfl⟩
      exact ⟨u, e, (arcTo_iff hp.inv).2 ⟨he, rfl⟩, hlt⟩
    · rintro ⟨u, e, ha, hlt⟩
      obtain ⟨he, rfl⟩ := (arcTo_iff hp.inv).1 ha
      exact ⟨u, e, ⟨he, hlt⟩, rfl⟩
  obtain ⟨res, h1, h2⟩ := computeCols_spec hp hF hh hR hloop (by
    intro v e hv hv0 he
    have hw := nbr_primary hp he
    have hne := hloop v e he
    have hrne : (c.VI v).pos ≠ (c.VI (s.g.E e).nbr).pos := fun h => hne (hR.apart _ _ hw.1 hw.2 hv.1 hv.2 h.symm)
    rcases hF.related v e _ ((arcTo_iff hp.inv).2 ⟨he, rfl⟩) with ha | ha
    · have := hroot v _ hv hv0 hw ha
      omega
    · rcases ha.cases with h | h
      · exact absurd h hne
      · exact absurd hv0 h.1)
  refine ⟨res, h1, ?_⟩
  rcases h2 with ⟨rfl, v, hv, hv0, hno⟩ | ⟨hall, L, rfl, hnd, hlen, hmem⟩
  · refine .inl ⟨rfl, fun hA => ?_⟩
    obtain ⟨u, e, hd, he⟩ := (hdown v).2 (hA v hv hv0)
    exact hno u e hd he
  · refine .inr ⟨fun v hv hv0 => (hdown v).1 (hall v hv hv0), ?_⟩
    have hslot : ∀ u e, e ∈ rot u → e / 2 ∈ L := by
      intro u e he
      have h6 := (hp.inv.links.arc u e he).1
      have h7 := hp.inv.below u e he
      unfold inUse at h7
      rw [hh, List.length_nil] at h7
      rw [hmem]
      omega
    have hcol : ∀ u e, e ∈ rot u → ((colAll L 0 c).E e).pos = (L.idxOf (e / 2) : Int) := by
      intro u e he
      rw [colAll_in L 0 c e hnd (hslot u e he)]
      simp
    have hidx : ∀ u e, e ∈ rot u → L.idxOf (e / 2) < s.g.M := fun u e he => hlen ▸ List.idxOf_lt_length_of_mem (hslot u e he)
    obtain ⟨c2, j1, j2, j3, -, j5⟩ := vertexRanges_spec hp (verts s.g) (colAll L 0 c)
      (fun v hv => mem_verts.1 hv) (fun u e he => by rw [hcol u e he]; have := hidx u e he; omega)
    have hlive : ∀ e ∈ edges s.g, ∃ u, e ∈ rot u := by
      intro e he
      obtain ⟨a1, a2, a3⟩ := mem_edges.1 he
      have := hp.inv.cover e a1 a2
      rw [hh] at this
      simpa using this
    obtain ⟨c3, k1, k2, k3, -, k5⟩ := edgeRanges_spec hp (edges s.g) c2 hlive
    have hpos : ∀ v, (c3.VI v).pos = (c.VI v).pos := by
      intro v
      rw [k2, j3 v, colAll_VI]
    have hcol3 : ∀ u e, e ∈ rot u → (c3.E e).pos = (L.idxOf (e / 2) : Int) := by
      intro u e he
      rw [k3 e, j2]
      exact hcol u e he
    have hrun : ∀ u e, e ∈ rot u → Run s.g c3 e := by
      intro u e he
      have h6 := (hp.inv.links.arc u e he).1
      have h7 := hp.inv.below u e he
      have h8 := inUse_even s.g
      by_cases hev : e % 2 = 0
      · exact (k5 e (mem_edges.2 ⟨h6, h7, hev⟩)).1
      · have := (k5 (2 * (e / 2)) (mem_edges.2 ⟨by omega, by omega, by omega⟩)).2
        rwa [show twin (2 * (e / 2)) = e by rw [twin_eq]; split <;> omega] at this
    have hseg : ∀ v, 1 ≤ v → v ≤ s.g.N → Seg rot c3 v := by
      intro v hv1 hv2
      have := j5 v (mem_verts.2 ⟨hv1, hv2⟩)
      unfold Seg at this ⊢
      rw [k2]
      have he : ∀ e, (c3.E e).pos = (c2.E e).pos := fun e => by rw [k3 e]
      simp only [he]
      exact this
    refine ⟨_, c2, c3, rfl, j1, k1, ?_, fun v => by rw [k2, j3 v, colAll_VI]⟩
    refine ⟨⟨?_, ?_, ?_⟩, ⟨?_, ?_, ?_⟩, ?_, ?_, ?_, ?_, ?_, ?_⟩
    · intro v h1 h2
      unfold vrow
      rw [hpos]
      exact hR.range v h1 h2
    · intro v w h1 h2 h3 h4 h5
      unfold vrow at h5
      rw [hpos, hpos] at h5
      exact hR.apart v w h1 h2 h3 h4 h5
    · intro k hk
      obtain ⟨v, h1, h2, h3⟩ := hR.all k hk
      exact ⟨v, h1, h2, by unfold vrow; rw [hpos]; exact h3⟩
    · intro e he
      obtain ⟨u, hu⟩ := (live_iff hp.inv).1 he
      unfold ecol
      rw [hcol3 u e hu]
      have := hidx u e hu
      omega
    · intro e f he hf hq
      obtain ⟨u, hu⟩ := (live_iff hp.inv).1 he
      obtain ⟨w, hw⟩ := (live_iff hp.inv).1 hf
      unfold ecol at hq
      rw [hcol3 u e hu, hcol3 w f hw] at hq
      have := (List.idxOf_inj (hslot u e hu)).1 (show L.idxOf (e / 2) = L.idxOf (f / 2) by omega)
      exact div_eq_cases this.symm
    · intro k hk
      have hk' : k < L.length := by omega
      have hm : L[k] ∈ L := List.getElem_mem hk'
      have hr := (hmem _).1 hm
      obtain ⟨u, hu⟩ := hlive (2 * L[k]) (mem_edges.2 ⟨by omega, by unfold inUse; rw [hh, List.length_nil]; omega, by omega⟩)
      refine ⟨2 * L[k], (live_iff hp.inv).2 ⟨u, hu⟩, ?_⟩
      unfold ecol
      rw [hcol3 u _ hu, show 2 * L[k] / 2 = L[k] by omega, hnd.idxOf_getElem]
    · intro e he
      obtain ⟨u, hu⟩ := (live_iff hp.inv).1 he
      have htw := hp.inv.twins u e hu
      show c3.E (twin e) = c3.E e
      have p1 := hcol3 u e hu
      have p2 := hcol3 _ _ htw
      rw [twin_div] at p2
      obtain ⟨r1, r2⟩ := hrun u e hu
      obtain ⟨r3, r4⟩ := hrun _ _ htw
      rw [twin_twin, min_comm] at r3
      rw [twin_twin, max_comm] at r4
      have e1 : ∀ a b : DEdge, a.pos = b.pos → a.start = b.start → a.stop = b.stop → a = b := by
        rintro ⟨⟩ ⟨⟩ rfl rfl rfl; rfl
      exact e1 _ _ (p2.trans p1.symm) (r3.trans r1.symm) (r4.trans r2.symm)
    · intro v e w ha
      obtain ⟨he, -⟩ := (arcTo_iff hp.inv).1 ha
      have hv := hp.prim v e he
      exact (hseg v hv.1 hv.2).2.1 e he
    · intro v e w ha
      obtain ⟨he, -⟩ := (arcTo_iff hp.inv).1 ha
      have hv := hp.prim v e he
      obtain ⟨⟨e', he', q⟩, -⟩ := (hseg v hv.1 hv.2).2.2 (List.ne_nil_of_mem he)
      exact ⟨e', _, (arcTo_iff hp.inv).2 ⟨he', rfl⟩, q⟩
    · intro v e w ha
      obtain ⟨he, -⟩ := (arcTo_iff hp.inv).1 ha
      have hv := hp.prim v e he
      obtain ⟨-, ⟨e', he', q⟩⟩ := (hseg v hv.1 hv.2).2.2 (List.ne_nil_of_mem he)
      exact ⟨e', _, (arcTo_iff hp.inv).2 ⟨he', rfl⟩, q⟩
    · intro v h1 h2 hno
      refine (hseg v h1 h2).1 ?_
      by_contra hne
      obtain ⟨a, ha⟩ := List.exists_mem_of_ne_nil _ hne
      exact hno a _ ((arcTo_iff hp.inv).2 ⟨ha, rfl⟩)
    · intro u e w ha
      obtain ⟨he, rfl⟩ := (arcTo_iff hp.inv).1 ha
      obtain ⟨r1, r2⟩ := hrun u e he
      rw [hp.inv.owner u e he] at r1 r2
      unfold etop ebottom vrow
      exact ⟨by rw [r1, min_comm], by rw [r2, max_comm]⟩

theorem layout_ws (hp : PInv s rot) (stk : List Nat) {c : Ctx} (h : Layout (ws s stk).g c) : Layout s.g c := by
  have ha : ∀ u e w, ArcTo s.g u e w → ArcTo (ws s stk).g u e w := fun _ _ _ => (arcTo_ws hp stk).2
  have hb : ∀ u e w, ArcTo (ws s stk).g u e w → ArcTo s.g u e w := fun _ _ _ => (arcTo_ws hp stk).1
  have hv : ∀ e, Live s.g e → Live (ws s stk).g e := fun e he =>
    (live_iff (pinv_ws hp stk).inv).2 ((live_iff hp.inv).1 he)
  have hv' : ∀ e, Live (ws s stk).g e → Live s.g e := fun e he =>
    (live_iff hp.inv).2 ((live_iff (pinv_ws hp stk).inv).1 he)
  refine ⟨⟨h.rows.range, h.rows.apart, h.rows.all⟩, ⟨fun e he => h.columns.range e (hv e he),
    fun e f he hf => h.columns.apart e f (hv e he) (hv f hf), fun k hk => ?_⟩, fun e he => h.arcs e (hv e he),
    fun v e w k => h.covers v e w (ha _ _ _ k), fun v e w k => ?_, fun v e w k => ?_, fun v h1 h2 hno =>
    h.single v h1 h2 fun e w k => hno e w (hb _ _ _ k), fun u e w k => h.runs u e w (ha _ _ _ k)⟩
  · obtain ⟨e, he, q⟩ := h.columns.all k hk
    exact ⟨e, hv' e he, q⟩
  · obtain ⟨e', w', k', q⟩ := h.first v e w (ha _ _ _ k)
    exact ⟨e', w', hb _ _ _ k', q⟩
  · obtain ⟨e', w', k', q⟩ := h.last v e w (ha _ _ _ k)
    exact ⟨e', w', hb _ _ _ k', q⟩

theorem allHang_ws (hp : PInv s rot) (stk : List Nat) {c : Ctx} : AllHang (ws s stk) par c ↔ AllHang s par c := by
  unfold AllHang
  simp only [arcTo_ws hp stk]
  rfl

end Draw
end Verif
