import Verif.Spec.Drawing
import Verif.Spec.Tests
import Verif.Draw.Rendition
import Verif.Props.Obstructions

/-
Properties of drawings (C31, C32).
-/
namespace Verif.Props
open Verif Verif.Graph Verif.Draw Verif.DFS

theorem half_mark (f : Nat) (b : Prop) [Decidable b] : (f / 2 * 2 + (if b then 1 else 0)) / 2 = f / 2 := by
  split <;> omega

theorem onlyMarks_marks (g : Graph) (S T : List Nat) : OnlyMarks g (marks g S T) := by
  refine ⟨rfl, fun v => ⟨rfl, ?_⟩, fun e => ⟨rfl, ?_⟩⟩
  · simp only [marks]
    split
    · exact half_mark _ _
    · rfl
  · simp only [marks]
    split
    · exact half_mark _ _
    · rfl

/-- What the test asks, in terms of the drawing. -/
theorem visibility_iff {s : PGraph} {rot} (h : PInv s rot) (hl : NoLoops s.g) (hh : s.g.holes = []) (c : Ctx) :
    (((0 < s.g.M → ∀ v ∈ verts s.g, VertexOk c s.g v) ∧ ((verts s.g).map (slot c)).Nodup) ∧
      ((∀ e ∈ edges s.g, EdgeOk c s.g e) ∧ ((edges s.g).map (eslot c)).Nodup) ∧
        ∀ e ∈ edges s.g, ∀ v ∈ verts s.g, CrossOk c s.g e v) ∧
      (s.g.M = 0 → ∀ v, 1 ≤ v → v ≤ s.g.N → -1 ≤ (c.VI v).pos) ↔
    Visibility s.g c ∧ (s.g.M = 0 → ∀ v, 1 ≤ v → v ≤ s.g.N → -1 ≤ (c.VI v).pos) := by
  have hI := h.inv
  have hlive : ∀ e, Live s.g e ↔ 2 ≤ e ∧ e < s.g.inUse := by
    intro e
    constructor
    · rintro ⟨w, hw⟩
      have := hI.arcAt.1 hw
      exact ⟨(hI.links.arc _ _ this).1, hI.below _ _ this⟩
    · rintro ⟨h1, h2⟩
      rcases hI.cover e h1 h2 with ⟨v, hv⟩ | hv | hv
      · exact ⟨v, hI.arcAt.2 hv⟩
      · rw [hh] at hv; simp at hv
      · rw [hh] at hv; simp at hv
  have heven := inUse_even s.g
  have htw : ∀ e, e % 2 = 0 → twin e = e + 1 := fun e he => by rw [twin_eq, if_pos he]
  have htw' : ∀ e, e % 2 = 1 → twin e = e - 1 := fun e he => by rw [twin_eq, if_neg (by omega)]
  have hM : ∀ e, Live s.g e → 0 < s.g.M := by
    intro e he
    have := (hlive e).1 he
    unfold inUse at this
    rw [hh] at this
    simp at this
    omega
  -- for each edge, one of its arcs is listed
  have hrep : ∀ e, Live s.g e → e ∈ edges s.g ∨ twin e ∈ edges s.g := by
    intro e he
    have := (hlive e).1 he
    by_cases hev : e % 2 = 0
    · exact .inl (mem_edges.2 ⟨this.1, this.2, hev⟩)
    · right
      rw [mem_edges, htw' e (by omega)]
      omega
  have htwin : ∀ {u e w : Nat}, ArcTo s.g u e w → ArcTo s.g w (twin e) u := by
    intro u e w ha
    rw [arcTo_iff hI] at ha ⊢
    obtain ⟨h1, rfl⟩ := ha
    exact ⟨hI.twins u e h1, hI.owner u e h1⟩
  have hends : ∀ {u e w : Nat}, ArcTo s.g u e w → (s.g.E e).nbr = w ∧ (s.g.E (twin e)).nbr = u := by
    intro u e w ha
    rw [arcTo_iff hI] at ha
    exact ⟨ha.2, hI.owner u e ha.1⟩
  have hprim : ∀ {u e w : Nat}, ArcTo s.g u e w → (1 ≤ u ∧ u ≤ s.g.N) ∧ 1 ≤ w ∧ w ≤ s.g.N := by
    intro u e w ha
    have ht := htwin ha
    rw [arcTo_iff hI] at ha ht
    exact ⟨h.prim u e ha.1, h.prim w _ ht.1⟩
  have hne : ∀ {u e w : Nat}, ArcTo s.g u e w → u ≠ w := by
    rintro u e w ha rfl
    exact hl u ((adjacent_arc hI).2 ⟨e, ha⟩)
  have harc : ∀ e, Live s.g e → ∃ u w, ArcTo s.g u e w := by
    rintro e ⟨u, hu⟩
    exact ⟨u, _, (arcTo_iff hI).2 ⟨hI.arcAt.1 hu, rfl⟩⟩
  refine and_congr_left fun h0 => ?_
  constructor
  · rintro ⟨⟨v1, v2⟩, ⟨e1, e2⟩, x1⟩
    have hE : ∀ e, Live s.g e → EdgeOk c s.g e := by
      intro e he
      rcases hrep e he with hm | hm
      · exact e1 e hm
      · have := e1 _ hm
        unfold EdgeOk at this ⊢
        rw [twin_twin] at this
        rw [this.1] at *
        exact ⟨rfl, this.2⟩
    have hrow : ∀ v w, 1 ≤ v → v ≤ s.g.N → 1 ≤ w → w ≤ s.g.N → vrow c v = vrow c w → v = w := by
      intro v w a1 a2 b1 b2 hr
      refine (List.nodup_map_iff_inj_on verts_nodup).1 v2 v (mem_verts.2 ⟨a1, a2⟩) w (mem_verts.2 ⟨b1, b2⟩) ?_
      unfold slot
      unfold vrow at hr
      rw [hr]
    have hX : ∀ u e w v, ArcTo s.g u e w → 1 ≤ v → v ≤ s.g.N → CrossOk c s.g e v := by
      intro u e w v ha a1 a2
      rcases hrep e ⟨u, ha.1⟩ with hm | hm
      · exact x1 e hm v (mem_verts.2 ⟨a1, a2⟩)
      · have := x1 _ hm v (mem_verts.2 ⟨a1, a2⟩)
        unfold CrossOk at this ⊢
        rw [(hE e ⟨u, ha.1⟩).1, twin_twin] at this
        by_cases hq : (s.g.E e).nbr = v ∨ (s.g.E (twin e)).nbr = v
        · rw [if_pos hq]
          rwa [if_pos hq.symm] at this
        · rw [if_neg hq]
          rwa [if_neg (fun hc => hq hc.symm)] at this
    have hruns : ∀ u e w, ArcTo s.g u e w →
        etop c e = min (vrow c u) (vrow c w) ∧ ebottom c e = max (vrow c u) (vrow c w) := by
      intro u e w ha
      obtain ⟨p1, p2⟩ := hprim ha
      have hu := hX u e w u ha p1.1 p1.2
      have hw := hX u e w w ha p2.1 p2.2
      unfold CrossOk at hu hw
      rw [if_pos (.inr (hends ha).2)] at hu
      rw [if_pos (.inl (hends ha).1)] at hw
      have hq := (hE e ⟨u, ha.1⟩).2.2.2.2.1
      have hd : vrow c u ≠ vrow c w := fun hq => hne ha (hrow u w p1.1 p1.2 p2.1 p2.2 hq)
      unfold etop ebottom
      unfold vrow at hd ⊢
      omega
    refine ⟨fun hM v a1 a2 => ?_, hrow, fun hM v a1 a2 => ?_, fun e he => (hE e he).1, fun e he => ?_, ?_, hruns, ?_⟩
    · have := v1 hM v (mem_verts.2 ⟨a1, a2⟩)
      exact ⟨this.1, this.2.1⟩
    · have := v1 hM v (mem_verts.2 ⟨a1, a2⟩)
      exact this.2.2
    · exact ⟨(hE e he).2.1, (hE e he).2.2.1⟩
    · intro e f he hf hq
      have inj := List.nodup_map_iff_inj_on edges_nodup |>.1 e2
      have key : ∀ a b, a ∈ edges s.g → b ∈ edges s.g → ecol c a = ecol c b → a = b := by
        intro a b ha hb hq
        refine inj a ha b hb ?_
        unfold eslot
        unfold ecol at hq
        rw [hq]
      have hcol : ∀ e, Live s.g e → ecol c (twin e) = ecol c e := fun e he => by
        unfold ecol
        rw [(hE e he).1]
      rcases hrep e he with hm | hm <;> rcases hrep f hf with hn | hn
      · exact .inl (key _ _ hm hn hq).symm
      · right
        have := key _ _ hm hn (by rw [hcol f hf]; exact hq)
        rw [this]
        exact (twin_twin f).symm
      · right
        have := key _ _ hm hn (by rw [hcol e he]; exact hq)
        exact this.symm
      · left
        have := key _ _ hm hn (by rw [hcol f hf, hcol e he]; exact hq)
        exact (twin_inj this).symm
    · intro u e w v ha a1 a2
      have hx := hX u e w v ha a1 a2
      unfold CrossOk at hx
      rw [(hends ha).1, (hends ha).2] at hx
      have hr := hruns u e w ha
      unfold Meets etop ebottom ecol vleft vright vrow at *
      by_cases hv : w = v ∨ u = v
      · rw [if_pos hv] at hx
        have hE' := (hE e ⟨u, ha.1⟩).2.2.2.2.1
        constructor
        · intro _
          rcases hv with hv | hv
          · exact .inr hv.symm
          · exact .inl hv.symm
        · intro _
          omega
      · rw [if_neg hv] at hx
        constructor
        · intro hm
          exact absurd ⟨hm.1.1, hm.1.2, hm.2.1, hm.2.2⟩ hx
        · rintro (rfl | rfl)
          · exact absurd (.inr rfl) hv
          · exact absurd (.inl rfl) hv
  · intro hV
    have hEL : ∀ e ∈ edges s.g, Live s.g e := fun e he => (hlive e).2 ⟨(mem_edges.1 he).1, (mem_edges.1 he).2.1⟩
    refine ⟨⟨fun hM v hv => ?_, ?_⟩, ⟨fun e he => ?_, ?_⟩, fun e he v hv => ?_⟩
    · have a := mem_verts.1 hv
      exact ⟨(hV.rows hM v a.1 a.2).1, (hV.rows hM v a.1 a.2).2, hV.segments hM v a.1 a.2⟩
    · rw [List.nodup_map_iff_inj_on verts_nodup]
      intro v hv w hw hq
      have a := mem_verts.1 hv
      have b := mem_verts.1 hw
      refine hV.apart v w a.1 a.2 b.1 b.2 ?_
      unfold slot at hq
      unfold vrow
      by_cases hM : s.g.M = 0
      · have := h0 hM v a.1 a.2
        have := h0 hM w b.1 b.2
        omega
      · have := hV.rows (by omega) v a.1 a.2
        have := hV.rows (by omega) w b.1 b.2
        unfold vrow at *
        omega
    · have hL := hEL e he
      obtain ⟨u, w, ha⟩ := harc e hL
      obtain ⟨p1, p2⟩ := hprim ha
      have r1 := hV.rows (hM e hL) u p1.1 p1.2
      have r2 := hV.rows (hM e hL) w p2.1 p2.2
      have hr := hV.runs u e w ha
      have hc := hV.columns e hL
      refine ⟨hV.arcs e hL, hc.1, hc.2, ?_⟩
      unfold etop ebottom at hr
      omega
    · rw [List.nodup_map_iff_inj_on edges_nodup]
      intro e he f hf hq
      have a := mem_edges.1 he
      have b := mem_edges.1 hf
      have c1 := hV.columns e (hEL e he)
      have c2 := hV.columns f (hEL f hf)
      have hq' : ecol c e = ecol c f := by
        unfold eslot at hq
        unfold ecol at *
        omega
      rcases hV.distinct e f (hEL e he) (hEL f hf) hq' with hd | hd
      · exact hd.symm
      · have : f = twin e := hd
        rw [htw e a.2.2] at this
        omega
    · have a := mem_verts.1 hv
      obtain ⟨u, w, ha⟩ := harc e (hEL e he)
      have hm := hV.meets u e w v ha a.1 a.2
      have hr := hV.runs u e w ha
      unfold CrossOk
      rw [(hends ha).1, (hends ha).2]
      unfold Meets etop ebottom ecol vleft vright vrow at *
      by_cases hv : w = v ∨ u = v
      · rw [if_pos hv]
        have hm' := hm.2 (by rcases hv with hv | hv; exacts [.inr hv.symm, .inl hv.symm])
        rcases hv with rfl | rfl <;> omega
      · rw [if_neg hv]
        intro hx
        rcases hm.1 ⟨⟨hx.1, hx.2.1⟩, hx.2.2⟩ with rfl | rfl
        · exact hv (.inr rfl)
        · exact hv (.inl rfl)

/-- Without edges the test accepts only drawings with different rows. -/
theorem vertexLoop_none {c : Ctx} : ∀ (l : List Nat) (g g' : Graph), g.M = 0 → (∀ v ∈ l, v ≤ g.N) →
    tryAll (vertexTest c) l g = some (g', true) →
    (∀ v ∈ l, -1 ≤ (c.VI v).pos) ∧ (l.map (slot c)).Nodup ∧ ∀ v ∈ l, g.visited (slot c v) = some false := by
  intro l
  induction l with
  | nil => intro g g' _ _ _; simp
  | cons v l ih =>
    intro g g' hM hl h
    unfold tryAll at h
    simp only [Option.bind_eq_bind, Option.bind_eq_some_iff] at h
    obtain ⟨⟨g1, ok⟩, h1, h2⟩ := h
    cases ok with
    | false => simp at h2
    | true =>
      simp only [if_true] at h2
      unfold vertexTest rdDV at h1
      rw [if_pos (by have := hl v (by simp); omega)] at h1
      simp only [Option.bind_eq_bind, Option.bind_some] at h1
      rw [if_neg (by omega)] at h1
      unfold idx at h1
      by_cases hp : 0 ≤ (c.VI v).pos + 1
      · rw [if_pos hp] at h1
        simp only [Option.bind_some, Option.bind_eq_some_iff] at h1
        obtain ⟨b, hb, h1⟩ := h1
        cases b with
        | true => simp at h1
        | false =>
          simp only [Bool.false_eq_true, if_false, Option.bind_eq_bind, Option.bind_eq_some_iff, Option.pure_def, Option.some.injEq,
            Prod.mk.injEq, and_true] at h1
          obtain ⟨g2, hg2, rfl⟩ := h1
          have hb' : g.visited (slot c v) = some false := hb
          have hg2' : g.setVisited (slot c v) = some g2 := hg2
          have hrd : slot c v < g.vSize := by
            by_contra hlt
            unfold Graph.visited rdV at hb'
            rw [if_neg hlt] at hb'
            simp at hb'
          have hg3 : g2 = { g with V := Function.update g.V (slot c v) { g.V (slot c v) with flags := (g.V (slot c v)).flags ||| 1 } } := by
            unfold Graph.setVisited rdV wrV at hg2'
            rw [if_pos hrd] at hg2'
            simp only [Option.bind_eq_bind, Option.bind_some] at hg2'
            rw [if_pos hrd] at hg2'
            exact (Option.some.inj hg2').symm
          subst hg3
          obtain ⟨i1, i2, i3⟩ := ih _ g' (by exact hM) (fun w hw => by exact hl w (by simp [hw])) h2
          have key : ∀ w ∈ l, slot c w ≠ slot c v ∧ g.visited (slot c w) = some false := by
            intro w hw
            have h3 := i3 w hw
            have hne : slot c w ≠ slot c v := by
              intro hq
              rw [hq] at h3
              unfold Graph.visited rdV at h3
              rw [if_pos (by exact hrd)] at h3
              simp only [Option.bind_eq_bind, Option.bind_some, Function.update_self, Option.pure_def, Option.some.injEq,
                decide_eq_false_iff_not] at h3
              apply h3
              have := Nat.testBit_or (g.V (slot c v)).flags 1 0
              simp only [Nat.testBit_zero] at this
              simpa using this
            refine ⟨hne, ?_⟩
            unfold Graph.visited rdV at h3 ⊢
            have hvs : ({ g with V := Function.update g.V (slot c v) { g.V (slot c v) with flags := (g.V (slot c v)).flags ||| 1 } } : Graph).vSize = g.vSize := rfl
            rw [hvs] at h3
            simp only [Function.update_of_ne hne] at h3
            exact h3
          refine ⟨?_, ?_, ?_⟩
          · intro w hw
            rcases List.mem_cons.1 hw with rfl | hw
            · omega
            · exact i1 w hw
          · rw [List.map_cons, List.nodup_cons]
            refine ⟨fun hm => ?_, i2⟩
            obtain ⟨w, hw, hq⟩ := List.mem_map.1 hm
            exact (key w hw).1 hq
          · intro w hw
            rcases List.mem_cons.1 hw with rfl | hw
            · exact hb'
            · exact (key w hw).2
      · rw [if_neg hp] at h1
        simp at h1

/-- The test decides whether the data are a visibility representation, for graphs without loops, changing only visited
marks. Without edges it relies on the rows being row numbers. -/
theorem drawing_check_exact {s : PGraph} (h : Consistent s) (hl : NoLoops s.g) (c : Ctx)
    (h0 : s.g.M = 0 → ∀ v, 1 ≤ v → v ≤ s.g.N → 0 ≤ vrow c v ∧ vrow c v < s.g.N) :
    ∃ g' r, check c s.g = some (g', r) ∧ OnlyMarks s.g g' ∧ (r = .ok ∨ r = .notok) ∧
      (r = .ok ↔ s.g.holes = [] ∧ Visibility s.g c) := by
  obtain ⟨rot, hi⟩ := h
  obtain ⟨g', r, h1, h2, h3, h4⟩ := check_eq (c := c) (g := s.g) hi.inv.inUse_le h0
  refine ⟨g', r, h1, ?_, h3, ?_⟩
  · rcases h2 with rfl | ⟨S, T, rfl⟩
    · exact ⟨rfl, fun v => ⟨rfl, rfl⟩, fun e => ⟨rfl, rfl⟩⟩
    · exact onlyMarks_marks _ _ _
  · rw [h4]
    refine and_congr_right fun hh => ?_
    have hp : s.g.M = 0 → ∀ v, 1 ≤ v → v ≤ s.g.N → -1 ≤ (c.VI v).pos := fun hM v a b => by
      have := (h0 hM v a b).1
      unfold vrow at this
      omega
    have := visibility_iff hi hl hh c
    constructor
    · intro hc
      exact (this.1 ⟨hc, hp⟩).1
    · intro hc
      exact (this.2 ⟨hc, hp⟩).1

/-- C31: an accepted drawing of a graph without loops is a visibility representation. -/
theorem drawing_check_sound {s : PGraph} (h : Consistent s) (hl : NoLoops s.g) (c : Ctx) {g' : Graph}
    (hc : check c s.g = some (g', .ok)) : s.g.holes = [] ∧ Visibility s.g c := by
  by_cases hM : s.g.M = 0
  · obtain ⟨rot, hi⟩ := h
    unfold check at hc
    by_cases hh : s.g.holes = []
    · refine ⟨hh, ?_⟩
      rw [if_neg (by simp [hh]), clearMarks_eq s.g hi.inv.inUse_le] at hc
      simp only [Option.bind_eq_bind, Option.bind_some, Option.bind_eq_some_iff] at hc
      obtain ⟨⟨g1, ok⟩, h1, h2⟩ := hc
      cases ok with
      | false => simp at h2
      | true =>
        obtain ⟨a1, a2, a3⟩ := vertexLoop_none _ _ _ (by exact hM) (fun v hv => (mem_verts.1 hv).2) h1
        have hv : verts (marks s.g [] []) = verts s.g := rfl
        rw [hv] at a1 a2
        have he : edges s.g = [] := by unfold edges; rw [hM, hh]; rfl
        have := (visibility_iff hi hl hh c).1
        exact (this ⟨⟨⟨fun h => by omega, a2⟩, ⟨by rw [he]; simp, by rw [he]; simp⟩, by rw [he]; simp⟩,
          fun _ v b1 b2 => a1 v (mem_verts.2 ⟨b1, b2⟩)⟩).1
    · rw [if_pos hh] at hc
      simp at hc
  · obtain ⟨g1, r, h1, -, -, h2⟩ := drawing_check_exact h hl c (fun h => absurd h hM)
    rw [hc] at h1
    simp only [Option.some.injEq, Prod.mk.injEq] at h1
    exact h2.1 h1.2.symm

/-- A picture shows every accepted drawing of a graph with edges, unless it is too large for its size to be an int. -/
theorem rendering_partial {s : PGraph} (h : Consistent s) (c : Ctx) (hM : 0 < s.g.M) (hh : s.g.holes = [])
    (hV : Visibility s.g c) (hs : (s.g.M + 1) * 2 * s.g.N + 1 < 2147483648) :
    ∃ b, render c s.g = some (some b) ∧ Rendition s.g c b := by
  obtain ⟨rot, hi⟩ := h
  have hI := hi.inv
  have hlive : ∀ e, 2 ≤ e → e < s.g.inUse → Live s.g e := by
    intro e h1 h2
    rcases hI.cover e h1 h2 with ⟨v, hv⟩ | hv | hv
    · exact ⟨v, hI.arcAt.2 hv⟩
    · rw [hh] at hv; simp at hv
    · rw [hh] at hv; simp at hv
  have hL : ∀ e ∈ edges s.g, Live s.g e := fun e he => hlive e (mem_edges.1 he).1 (mem_edges.1 he).2.1
  have hends : ∀ e, Live s.g e → ∃ u w, ArcTo s.g u e w ∧ (1 ≤ u ∧ u ≤ s.g.N) ∧ 1 ≤ w ∧ w ≤ s.g.N := by
    rintro e ⟨u, hu⟩
    have hm := hI.arcAt.1 hu
    exact ⟨u, _, (arcTo_iff hI).2 ⟨hm, rfl⟩, hi.prim u e hm, hi.prim _ _ (hI.twins u e hm)⟩
  have hd : Drawable c s.g := by
    refine ⟨fun v hv => ?_, fun v hv w hw hq => ?_, fun e he => ?_, fun e he v hv hx => ?_⟩
    · have a := mem_verts.1 hv
      have r := hV.rows hM v a.1 a.2
      exact ⟨r.1, r.2, hV.segments hM v a.1 a.2⟩
    · have a := mem_verts.1 hv
      have b := mem_verts.1 hw
      exact hV.apart v w a.1 a.2 b.1 b.2 hq
    · obtain ⟨u, w, ha, pu, pw⟩ := hends e (hL e he)
      have c1 := hV.columns e (hL e he)
      have r1 := hV.rows hM u pu.1 pu.2
      have r2 := hV.rows hM w pw.1 pw.2
      have r3 := hV.runs u e w ha
      unfold etop ebottom at r3
      unfold ecol at c1
      omega
    · obtain ⟨u, w, ha, pu, pw⟩ := hends e (hL e he)
      have a := mem_verts.1 hv
      have r3 := hV.runs u e w ha
      have hm := (hV.meets u e w v ha a.1 a.2).1 (by unfold Meets etop ebottom vrow vleft vright ecol; omega)
      unfold etop ebottom vrow at r3
      rcases hm with rfl | rfl <;> omega
  rw [render_eq hh hI.inUse_le hs, putL_pic hd]
  refine ⟨_, rfl, pic_rendition hd (fun e he => ?_) hL⟩
  obtain ⟨u, hu⟩ := he
  have hm := hI.arcAt.1 hu
  have h2 := (hI.links.arc _ _ hm).1
  have h3 := hI.below _ _ hm
  by_cases hev : e % 2 = 0
  · exact ⟨e, mem_edges.2 ⟨h2, h3, hev⟩, rfl⟩
  · refine ⟨twin e, mem_edges.2 ?_, hV.arcs e ⟨u, hu⟩⟩
    rw [twin_eq, if_neg hev]
    omega

/-- A label of at most two characters that fits is drawn inside its vertex. -/
theorem short_labels_inside {g : Graph} {c : Ctx} {v : Nat} (hf : Fits g c v) (h2 : (labelOf g v).length ≤ 2) :
    Inside g c v := by
  unfold Fits at hf
  unfold Inside vmid
  unfold labelOf at *
  have h1 : 0 < (Text.dec (if g.flags &&& 8 ≠ 0 then v - 1 else v)).length := List.length_pos_of_ne_nil (Text.dec_ne _)
  omega

/-- In a visibility representation of a graph with edges every row has a vertex. -/
theorem Visibility.filled {g : Graph} {c : Ctx} (hV : Visibility g c) (hM : 0 < g.M) {r : Nat} (hr : r < g.N) :
    ∃ v, 1 ≤ v ∧ v ≤ g.N ∧ vrow c v = r := by
  have hmaps : ∀ v ∈ Finset.Icc 1 g.N, (vrow c v).toNat ∈ Finset.range g.N := by
    intro v hv
    have a := Finset.mem_Icc.1 hv
    have := hV.rows hM v a.1 a.2
    exact Finset.mem_range.2 (by omega)
  have hinj : Set.InjOn (fun v => (vrow c v).toNat) (Finset.Icc 1 g.N) := by
    intro v hv w hw hq
    have a := Finset.mem_Icc.1 (Finset.mem_coe.1 hv)
    have b := Finset.mem_Icc.1 (Finset.mem_coe.1 hw)
    have r1 := hV.rows hM v a.1 a.2
    have r2 := hV.rows hM w b.1 b.2
    have hq' : (vrow c v).toNat = (vrow c w).toNat := hq
    exact hV.apart v w a.1 a.2 b.1 b.2 (by omega)
  obtain ⟨v, hv, hq⟩ := Finset.surjOn_of_injOn_of_card_le _ hmaps hinj (by simp) (Finset.mem_coe.2 (Finset.mem_range.2 hr))
  have a := Finset.mem_Icc.1 (Finset.mem_coe.1 hv)
  have r1 := hV.rows hM v a.1 a.2
  have hq' : (vrow c v).toNat = r := hq
  exact ⟨v, a.1, a.2, by omega⟩

theorem dec_short : ∀ v < 100, (Text.dec v).length ≤ 2 := by decide

/-- C32 for graphs with edges and at most 99 vertices: every line ends with a newline, and a label that fits is shown
within its vertex. -/
theorem rendering_small_partial {s : PGraph} (h : Consistent s) (c : Ctx) (hM : 0 < s.g.M) (hh : s.g.holes = [])
    (hV : Visibility s.g c) (hs : (s.g.M + 1) * 2 * s.g.N + 1 < 2147483648) (hN : s.g.N ≤ 99) :
    ∃ b, render c s.g = some (some b) ∧ Rendition s.g c b ∧ (∀ r < 2 * s.g.N, Shown b s.g.M r s.g.M 10) ∧
      ∀ v, 1 ≤ v → v ≤ s.g.N → Fits s.g c v → Inside s.g c v ∧ ∀ j x : Nat, (labelOf s.g v)[j]? = some x →
        Shown b s.g.M (2 * (vrow c v).toNat) ((vmid c v).toNat + j) x := by
  obtain ⟨b, h1, h2⟩ := rendering_partial h c hM hh hV hs
  have hin : ∀ v, 1 ≤ v → v ≤ s.g.N → Fits s.g c v → Inside s.g c v := by
    intro v a1 a2 hf
    refine short_labels_inside hf (dec_short _ ?_)
    split <;> omega
  refine ⟨b, h1, h2, fun r hr => ?_, fun v a1 a2 hf => ⟨hin v a1 a2 hf, fun j x hx => h2.label v a1 a2 hf j x hx ?_⟩⟩
  · rcases Nat.even_or_odd' r with ⟨n, rfl | rfl⟩
    · obtain ⟨v, a1, a2, a3⟩ := hV.filled hM (show n < s.g.N by omega)
      have := h2.even v a1 a2 (fun hf => by
        have i1 := hin v a1 a2 hf
        have i2 := hV.segments hM v a1 a2
        unfold Inside at i1
        unfold InRow
        omega)
      rwa [a3] at this
    · exact h2.odd n (by omega)
  · have := hin v a1 a2 hf
    have hj : j < (labelOf s.g v).length := (List.getElem?_eq_some_iff.1 hx).1
    unfold Inside at this
    omega

/-- A graph with a drawing: the vertex 100 on top of 1, 2 and 3, the other vertices below. -/
def wideGraph : PGraph := built 100 10 [.add 100 1 1 0, .add 100 1 2 0, .add 100 1 3 0]
def wideDrawing : Ctx where
  VI v := if v = 100 then { pos := 0, start := 0, stop := 2 } else
    { pos := v, start := if v ≤ 3 then (v : Int) - 1 else 0, stop := if v ≤ 3 then (v : Int) - 1 else 0 }
  E e := { pos := ((e / 2 : Nat) : Int) - 1, start := 0, stop := ((e / 2 : Nat) : Int) }

theorem wideGraph_reach : PReach wideGraph :=
  built_reach _ _ _ (by decide) (by decide) (by decide +kernel) (by decide)

theorem noLoops_of {s : PGraph} {rot} (h : PInv s rot)
    (hd : ∀ e < s.g.inUse, e < 2 ∨ (s.g.E e).nbr ≠ (s.g.E (e ^^^ 1)).nbr) : NoLoops s.g := by
  intro u hu
  obtain ⟨e, he⟩ := (adjacent_arc h.inv).1 hu
  obtain ⟨h1, h2⟩ := (arcTo_iff h.inv).1 he
  rcases hd e (h.inv.below _ _ h1) with h3 | h3
  · have := (h.inv.links.arc _ _ h1).1
    omega
  · have := h.inv.owner u e h1
    exact h3 (h2.trans this.symm)

theorem wideGraph_ok : (check wideDrawing wideGraph.g).map Prod.snd = some .ok := by decide +kernel
theorem wideGraph_text : (render wideDrawing wideGraph.g).map (fun b => b.map (fun b => b.at_ 3)) = some (some (some 48)) := by
  decide +kernel

/-- C32 is false: the label 100 of a vertex three columns wide runs over the end of the vertex and of the line. -/
theorem rendering_false : ∃ (s : PGraph) (c : Ctx), PReach s ∧ NoLoops s.g ∧
    (check c s.g).map Prod.snd = some .ok ∧ ∃ b, render c s.g = some (some b) ∧
      (∃ r < 2 * s.g.N, ¬ Shown b s.g.M r s.g.M 10) ∧ ∃ v, 1 ≤ v ∧ v ≤ s.g.N ∧ Fits s.g c v ∧ ¬ Inside s.g c v := by
  refine ⟨wideGraph, wideDrawing, wideGraph_reach, ?_, wideGraph_ok, ?_⟩
  · obtain ⟨rot, hi⟩ := wideGraph_reach.inv
    exact noLoops_of hi (by decide +kernel)
  · have ht := wideGraph_text
    rcases hr : render wideDrawing wideGraph.g with _ | _ | b
    · rw [hr] at ht; simp at ht
    · rw [hr] at ht; simp at ht
    · rw [hr] at ht
      simp only [Option.map_some, Option.some.injEq] at ht
      refine ⟨b, rfl, ⟨0, by decide +kernel, fun hs => ?_⟩, 100, by decide, by decide +kernel, ?_, ?_⟩
      · unfold Shown at hs
        have hM : wideGraph.g.M = 3 := by decide +kernel
        rw [hM] at hs
        have : b.at_ 3 = some 10 := hs
        rw [ht] at this
        simp at this
      · unfold Fits; decide +kernel
      · unfold Inside; decide +kernel

/-- Two vertices, one with a loop. -/
def loopGraph : PGraph := built 2 10 [.add 1 0 1 0, .add 1 0 2 0]
def loopDrawing : Ctx where
  VI v := if v = 1 then { pos := 0, start := 0, stop := 1 } else { pos := 1, start := 1, stop := 1 }
  E e := { pos := if e < 4 then 0 else 1, start := 0, stop := 1 }

theorem loopGraph_reach : PReach loopGraph :=
  built_reach _ _ _ (by decide) (by decide) (by decide +kernel) (by decide)

/-- C31 needs graphs without loops: the test accepts a loop that runs from the row of its vertex to another row. -/
theorem drawing_check_loops : ∃ (s : PGraph) (c : Ctx), PReach s ∧ (check c s.g).map Prod.snd = some .ok ∧
    ¬ Visibility s.g c := by
  refine ⟨loopGraph, loopDrawing, loopGraph_reach, by decide +kernel, fun hV => ?_⟩
  obtain ⟨rot, hi⟩ := loopGraph_reach.inv
  have h2 : ∀ e, 2 ≤ e → e < loopGraph.g.inUse → ∃ u, e ∈ rot u := by
    intro e h1 h2
    have hh : loopGraph.g.holes = [] := by decide +kernel
    rcases hi.inv.cover e h1 h2 with hv | hv | hv
    · exact hv
    · rw [hh] at hv; simp at hv
    · rw [hh] at hv; simp at hv
  obtain ⟨u, hu⟩ := h2 2 (by decide) (by decide +kernel)
  have ha : ArcTo loopGraph.g u 2 _ := (arcTo_iff hi.inv).2 ⟨hu, rfl⟩
  have ho := hi.inv.owner u 2 hu
  have e1 : (loopGraph.g.E (twin 2)).nbr = 1 := by decide +kernel
  have e2 : (loopGraph.g.E 2).nbr = 1 := by decide +kernel
  rw [e1] at ho
  subst ho
  rw [e2] at ha
  have := (hV.runs 1 2 1 ha).2
  revert this
  decide

/-- A graph with one vertex, and drawings of it that are not within the rows and columns. -/
def oneGraph : PGraph := built 1 10 []
theorem oneGraph_reach : PReach oneGraph :=
  built_reach _ _ _ (by decide) (by decide) (by decide +kernel) (by decide)

/-- Without edges the test does not look whether rows and columns are in range. It then uses a row as an index outside the
graph, or accepts a drawing whose picture is written outside of its memory. -/
theorem drawing_range_false : ∃ (s : PGraph) (c d : Ctx), PReach s ∧ NoLoops s.g ∧ check c s.g = none ∧
    (check d s.g).map Prod.snd = some .ok ∧ (render d s.g).isNone := by
  refine ⟨oneGraph, { VI := fun _ => { pos := 5 } }, { VI := fun _ => { start := 5, stop := 5 } }, oneGraph_reach, ?_, ?_,
    by decide +kernel, by decide +kernel⟩
  · obtain ⟨rot, hi⟩ := oneGraph_reach.inv
    exact noLoops_of hi (by decide +kernel)
  · have : (check { VI := fun _ => { pos := 5 } } oneGraph.g).map Prod.snd = none := by decide +kernel
    simpa using this

/-- If the size of the picture is not an int, drawing it is undefined. -/
theorem rendering_overflow (g : Graph) (c : Ctx) (hh : g.holes = []) (hs : 2147483648 ≤ (g.M + 1) * 2 * g.N + 1) :
    render c g = none := by
  unfold render
  rw [if_neg (by simp [hh])]
  have : Text.ckInt (((g.M : Int) + 1) * 2 * g.N + 1) = none := by
    unfold Text.ckInt
    rw [if_neg]
    push_cast at hs
    have : (((g.M + 1) * 2 * g.N + 1 : Nat) : Int) = ((g.M : Int) + 1) * 2 * g.N + 1 := by push_cast; rfl
    omega
  rw [this]
  rfl

/-- A triangle. -/
def drawnTriangle : PGraph := built 3 10 [.add 1 0 2 0, .add 2 0 3 0, .add 3 0 1 0]
def triangleDrawing : Ctx where
  VI v := if v = 1 then { pos := 0, start := 0, stop := 2 } else if v = 2 then { pos := 1, start := 0, stop := 1 }
    else { pos := 2, start := 1, stop := 2 }
  E e := if e < 4 then { pos := 0, start := 0, stop := 1 } else if e < 6 then { pos := 1, start := 1, stop := 2 }
    else { pos := 2, start := 0, stop := 2 }
theorem drawnTriangle_reach : PReach drawnTriangle :=
  built_reach _ _ _ (by decide) (by decide) (by decide +kernel) (by decide)

/-- The hypotheses hold for the triangle, and the test accepts its drawing. -/
example : Consistent drawnTriangle ∧ NoLoops drawnTriangle.g ∧ drawnTriangle.g.M = 3 ∧ drawnTriangle.g.holes = [] ∧ Visibility drawnTriangle.g triangleDrawing := by
  obtain ⟨rot, hi⟩ := drawnTriangle_reach.inv
  have hl : NoLoops drawnTriangle.g := noLoops_of hi (by decide +kernel)
  have hc : (check triangleDrawing drawnTriangle.g).map Prod.snd = some .ok := by decide +kernel
  refine ⟨⟨rot, hi⟩, hl, by decide +kernel, by decide +kernel, ?_⟩
  rcases hr : check triangleDrawing drawnTriangle.g with _ | ⟨g', r⟩
  · rw [hr] at hc; simp at hc
  · rw [hr] at hc
    simp only [Option.map_some, Option.some.injEq] at hc
    subst hc
    exact (drawing_check_sound ⟨rot, hi⟩ hl triangleDrawing hr).2
/-- And rejects the drawing with the rows of two vertices exchanged. -/
example : (check { triangleDrawing with VI := fun v => triangleDrawing.VI (if v = 1 then 2 else if v = 2 then 1 else v) }
    drawnTriangle.g).map Prod.snd = some .notok := by decide +kernel
/-- A graph whose picture is too large. -/
example : PReach { g := Graph.init 1073741824 2 } ∧ (Graph.init 1073741824 2).holes = [] ∧
    2147483648 ≤ ((Graph.init 1073741824 2).M + 1) * 2 * (Graph.init 1073741824 2).N + 1 :=
  ⟨.init _ _ (by decide) (by decide), rfl, by decide⟩

end Verif.Props
