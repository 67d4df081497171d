import Verif.Embed.InitVisit

/-
Visiting a vertex in the search of _EmbeddingInitialize.
-/
namespace Verif.Embed
open Verif Verif.Graph Verif.EGraph Verif.DFS Function

theorem setVisited_some {g g' : Graph} {u : Nat} (h : g.setVisited u = some g') :
    u < g.vSize ∧ g' = g.updV u (fun r => { r with flags := r.flags ||| 1 }) := by
  unfold setVisited at h
  by_cases he : u < g.vSize
  · simp [rdV, wrV, he] at h; exact ⟨he, by rw [← h]; rfl⟩
  · simp [rdV, he] at h

theorem setIndex_some {g g' : Graph} {u i : Nat} (h : g.setIndex u i = some g') :
    u < g.vSize ∧ g' = g.updV u (fun r => { r with index := i }) := by
  unfold setIndex at h
  by_cases he : u < g.vSize
  · simp [rdV, wrV, he] at h; exact ⟨he, by rw [← h]; rfl⟩
  · simp [rdV, he] at h

/-- The state after the records of the visited vertex and its tree arc are made. -/
structure Enter (s : EGraph) (u p e d : Nat) (s1 : EGraph) : Prop where
  N : s1.p.g.N = s.p.g.N
  M : s1.p.g.M = s.p.g.M
  arcCap : s1.p.g.arcCap = s.p.g.arcCap
  holes : s1.p.g.holes = s.p.g.holes
  holesCap : s1.p.g.holesCap = s.p.g.holesCap
  stackCap : s1.p.g.stackCap = s.p.g.stackCap
  flags : s1.p.g.flags = s.p.g.flags
  stack : s1.p.g.stack = s.p.g.stack
  E : ∀ f, s1.p.g.E f = { s.p.g.E f with
    flags := (s.p.g.E f).flags ||| (if e = 0 then 0 else if f = e then 14 else if f = twin e then 6 else 0) }
  V : ∀ v, v ≠ u → (e = 0 ∨ v ≠ d + s.p.g.N) → s1.p.g.V v = s.p.g.V v
  Vu : s1.p.g.V u = { s.p.g.V u with index := d, flags := (s.p.g.V u).flags ||| 1 }
  Vr : e ≠ 0 → ∀ b, (s1.p.g.V (d + s.p.g.N)).link b = e
  VI : ∀ x, s1.p.VI x = { s.p.VI x with
    parent := if x = u then p else (s.p.VI x).parent
    leastAncestor := if x = u then d else (s.p.VI x).leastAncestor
    sortedDFSChildList := (s1.p.VI x).sortedDFSChildList }
  kids : (e = 0 ∧ s1.kids = s.kids ∧ ∀ x, (s1.p.VI x).sortedDFSChildList = (s.p.VI x).sortedDFSChildList) ∨
    (e ≠ 0 ∧ LC.append s.kids (s.p.VI p).sortedDFSChildList d = some (s1.kids, (s1.p.VI p).sortedDFSChildList) ∧
      ∀ x, x ≠ p → (s1.p.VI x).sortedDFSChildList = (s.p.VI x).sortedDFSChildList)
  roots : s1.roots = s.roots

/-- The part of the visit before the loop over the arcs. -/
def enterPart (s : EGraph) (u uparent e dfi : Nat) : Option EGraph := do
  let g ← s.p.g.setVisited u
  let g ← g.setIndex u dfi
  let p ← (s.p.setG g).setParent u uparent
  let s ← (s.setP p).treeArc u uparent e
  let d ← s.p.g.getIndex u
  let r ← s.p.rdVI u
  let p ← s.p.wrVI u { r with leastAncestor := d }
  return s.setP p

theorem initVisit_eq (s : EGraph) (u p e d : Nat) : s.initVisit u p e d = (enterPart s u p e d).bind fun s1 =>
    (s1.p.g.getArc u false).bind fun f => (initArcs u s1.p.g.eSize f s1.p).bind fun q => some (s1.setP q) := by
  unfold initVisit enterPart
  simp only [Option.bind_eq_bind, Option.bind_assoc, Option.pure_def, Option.bind_some]
  rfl

theorem enterPart_total {s : EGraph} {u p e d : Nat} (hu : u ≤ s.p.g.N) (hd : d ≤ s.p.g.N)
    (hc : e = 0 ∨ (e < s.p.g.eSize ∧ twin e < s.p.g.eSize ∧ p ≤ s.p.g.N ∧ p ≠ u ∧
      ∃ x, LC.append s.kids (s.p.VI p).sortedDFSChildList d = some x)) : ∃ s1, enterPart s u p e d = some s1 := by
  have hv : u < s.p.g.vSize := by unfold vSize; omega
  have e1 : s.p.g.setVisited u = some (s.p.g.updV u (fun r => { r with flags := r.flags ||| 1 })) := by
    unfold setVisited; simp only [rdV, wrV, hv, if_true, Option.bind_eq_bind, Option.bind_some]; rfl
  have e2 : ∀ g : Graph, u < g.vSize → g.setIndex u d = some (g.updV u (fun r => { r with index := d })) := by
    intro g hg; unfold setIndex; simp only [rdV, wrV, hg, if_true, Option.bind_eq_bind, Option.bind_some]; rfl
  have e3 : ∀ g : Graph, u < g.vSize → g.getIndex u = some (g.V u).index := by
    intro g hg; unfold getIndex; simp only [rdV, hg, if_true, Option.bind_eq_bind, Option.bind_some]; rfl
  unfold enterPart
  rw [e1]
  simp only [Option.bind_eq_bind, Option.bind_some]
  rw [e2 _ (by exact hv), Option.bind_some]
  unfold PGraph.setParent
  rw [rdVI_ok (by show u < 1 + s.p.g.N; omega)]
  simp only [Option.bind_eq_bind, Option.bind_some]
  rw [wrVI_ok _ (by show u < 1 + s.p.g.N; omega), Option.bind_some]
  have fin : ∀ s2 : EGraph, s2.p.g.N = s.p.g.N → ∃ s1, ((s2.p.g.getIndex u).bind fun d => (s2.p.rdVI u).bind fun r =>
      (s2.p.wrVI u { r with leastAncestor := d }).bind fun p => some (s2.setP p)) = some s1 := by
    intro s2 h2
    rw [e3 _ (by unfold vSize; rw [h2]; exact hv), Option.bind_some, rdVI_ok (by omega), Option.bind_some, wrVI_ok _ (by omega)]
    exact ⟨_, rfl⟩
  unfold treeArc
  by_cases he : e ≠ 0
  · obtain ⟨c1, c2, c3, c4, ⟨kids, head⟩, c5⟩ := hc.resolve_left he
    rw [if_pos he, setTypes_ok (by exact c1) (by exact c2)]
    simp only [Option.bind_eq_bind, Option.bind_some]
    rw [e3 _ (by exact hv)]
    unfold appendChild
    simp only [Option.bind_eq_bind, Option.bind_some]
    rw [rdVI_ok (by show p < 1 + s.p.g.N; omega), Option.bind_some]
    have hd' : ∀ x : VRec, x.index = d → LC.append s.kids ((update s.p.VI u { s.p.VI u with parent := p }) p).sortedDFSChildList x.index = some (kids, head) := by
      intro x hx; rw [update_of_ne c4, hx]; exact c5
    have hidx : ∀ E' : Nat → ERec, (({ ((s.p.g.updV u fun r => { r with flags := r.flags ||| 1 }).updV u fun r => { r with index := d }) with E := E' } : Graph).V u).index = d := by
      intro E'
      show (((s.p.g.updV u fun r => { r with flags := r.flags ||| 1 }).updV u fun r => { r with index := d }).V u).index = d
      rw [updV_V, if_pos rfl]
    have h5 := hd' _ (hidx fun f => { s.p.g.E f with flags := (s.p.g.E f).flags ||| (if f = e then 14 else if f = twin e then 6 else 0) })
    have hR : d + s.p.g.N < s.p.g.vSize := by unfold vSize; omega
    generalize hX : LC.append _ _ _ = X
    have h6 : X = some (kids, head) := hX.symm.trans h5
    subst h6
    simp only [Option.bind_some]
    rw [wrVI_ok _ (by show p < 1 + s.p.g.N; omega), Option.bind_some, Option.pure_def, Option.bind_some]
    have hi2 := hidx fun f => { s.p.g.E f with flags := (s.p.g.E f).flags ||| (if f = e then 14 else if f = twin e then 6 else 0) }
    rw [setArc_eq (by
      show (({ ((s.p.g.updV u fun r => { r with flags := r.flags ||| 1 }).updV u fun r => { r with index := d }) with E := _ } : Graph).V u).index + s.p.g.N < s.p.g.vSize
      rw [hi2]; exact hR), Option.bind_some, setArc_eq (by
      show (({ ((s.p.g.updV u fun r => { r with flags := r.flags ||| 1 }).updV u fun r => { r with index := d }) with E := _ } : Graph).V u).index + s.p.g.N < s.p.g.vSize
      rw [hi2]; exact hR), Option.bind_some]
    exact fin _ rfl
  · rw [if_neg he]
    exact fin _ rfl

theorem enter_some {s s1 : EGraph} {u p e d : Nat} (hu : u ≤ s.p.g.N) (hd : 1 ≤ d) (hup : e ≠ 0 → p ≠ u)
    (h : enterPart s u p e d = some s1) : Enter s u p e d s1 := by
  unfold enterPart at h
  simp only [Option.bind_eq_bind] at h
  rw [Option.bind_eq_some_iff] at h
  obtain ⟨g1, h1, h⟩ := h
  obtain ⟨v1, rfl⟩ := setVisited_some h1
  rw [Option.bind_eq_some_iff] at h
  obtain ⟨g2, h2, h⟩ := h
  obtain ⟨v2, rfl⟩ := setIndex_some h2
  rw [Option.bind_eq_some_iff] at h
  obtain ⟨p1, h3, h⟩ := h
  unfold PGraph.setParent at h3
  simp only [Option.bind_eq_bind] at h3
  rw [Option.bind_eq_some_iff] at h3
  obtain ⟨ru, h3, h4⟩ := h3
  have h3 := rdVI_some h3
  obtain rfl := wrVI_some h4
  rw [Option.bind_eq_some_iff] at h
  obtain ⟨s2, h5, h⟩ := h
  rw [Option.bind_eq_some_iff] at h
  obtain ⟨d', h6, h⟩ := h
  rw [Option.bind_eq_some_iff] at h
  obtain ⟨ru2, h7, h⟩ := h
  have h7 := rdVI_some h7
  rw [Option.bind_eq_some_iff] at h
  obtain ⟨p2, h8, h⟩ := h
  obtain rfl := wrVI_some h8
  obtain rfl := Option.some.inj h
  have h3' : s.p.VI u = ru := h3
  subst h3'
  unfold treeArc at h5
  by_cases he : e ≠ 0
  · rw [if_pos he] at h5
    simp only [Option.bind_eq_bind] at h5
    rw [Option.bind_eq_some_iff] at h5
    obtain ⟨g3, k1, h5⟩ := h5
    obtain ⟨l1, l2, rfl⟩ := setTypes_some k1
    rw [Option.bind_eq_some_iff] at h5
    obtain ⟨d1, k2, h5⟩ := h5
    have hd1 : d1 = d := by
      simp only [getIndex, rdV] at k2
      rw [if_pos (by exact v1)] at k2
      simp only [Option.bind_eq_bind, Option.bind_some, Option.pure_def, Option.some.injEq] at k2
      rw [← k2]; simp [setP, PGraph.setG]
    subst hd1
    rw [Option.bind_eq_some_iff] at h5
    obtain ⟨s3, k3, h5⟩ := h5
    unfold appendChild at k3
    simp only [Option.bind_eq_bind] at k3
    rw [Option.bind_eq_some_iff] at k3
    obtain ⟨rp, k4, k3⟩ := k3
    have k4 := rdVI_some k4
    rw [Option.bind_eq_some_iff] at k3
    obtain ⟨⟨kids, head⟩, k5, k3⟩ := k3
    simp only at k3
    rw [Option.bind_eq_some_iff] at k3
    obtain ⟨p4, k6, k3⟩ := k3
    obtain rfl := wrVI_some k6
    obtain rfl := Option.some.inj k3
    rw [Option.bind_eq_some_iff] at h5
    obtain ⟨g4, k7, h5⟩ := h5
    obtain ⟨_, rfl⟩ := setArc_some k7
    rw [Option.bind_eq_some_iff] at h5
    obtain ⟨g5, k8, h5⟩ := h5
    obtain ⟨_, rfl⟩ := setArc_some k8
    obtain rfl := Option.some.inj h5
    have hpu := hup he
    have k4' : update s.p.VI u { s.p.VI u with parent := p } p = rp := k4
    rw [update_of_ne hpu] at k4'
    subst k4'
    have h7' : update (update s.p.VI u { s.p.VI u with parent := p }) p { s.p.VI p with sortedDFSChildList := head } u = ru2 := h7
    rw [update_of_ne (Ne.symm hpu), update_self] at h7'
    subst h7'
    have hR : d1 + s.p.g.N ≠ u := by omega
    have hV : ∀ v, ((((s.p.g.updV u fun r => { r with flags := r.flags ||| 1 }).updV u fun r => { r with index := d1 }).updV
        (d1 + s.p.g.N) (·.setLink false e)).updV (d1 + s.p.g.N) (·.setLink true e)).V v =
        if v = d1 + s.p.g.N then ((s.p.g.V v).setLink false e).setLink true e
        else if v = u then { s.p.g.V u with index := d1, flags := (s.p.g.V u).flags ||| 1 } else s.p.g.V v := by
      intro v
      simp only [updV_V]
      by_cases q1 : v = d1 + s.p.g.N
      · subst q1
        rw [if_pos rfl, if_pos rfl, if_pos rfl, if_neg hR, if_neg hR]
      · rw [if_neg q1, if_neg q1, if_neg q1]
        by_cases q2 : v = u
        · subst q2; rw [if_pos rfl, if_pos rfl, if_pos rfl]
        · rw [if_neg q2, if_neg q2, if_neg q2]
    have hd' : d' = d1 := by
      simp only [getIndex, rdV] at h6
      rw [if_pos (by exact v1)] at h6
      simp only [Option.bind_eq_bind, Option.bind_some, Option.pure_def, Option.some.injEq] at h6
      rw [← h6]
      exact (congrArg VRec.index (hV u)).trans (by rw [if_neg (Ne.symm hR), if_pos rfl])
    subst hd'
    refine ⟨rfl, rfl, rfl, rfl, rfl, rfl, rfl, rfl, ?_, ?_, ?_, ?_, ?_, ?_, rfl⟩
    · intro f; simp only [if_neg he]; rfl
    · intro v q1 q2
      refine (hV v).trans ?_
      rw [if_neg (q2.resolve_left he), if_neg q1]
    · refine (hV u).trans ?_
      rw [if_neg (Ne.symm hR), if_pos rfl]
    · intro _ b
      refine (congrArg (fun r => VRec.link r b) (hV _)).trans ?_
      simp only [if_true]
      cases b <;> simp
    · intro x
      have hK : ∀ K : Nat → VInfo, K = update (update (update s.p.VI u { s.p.VI u with parent := p }) p
          { s.p.VI p with sortedDFSChildList := head }) u { s.p.VI u with parent := p, leastAncestor := d' } →
          K x = { s.p.VI x with parent := if x = u then p else (s.p.VI x).parent, leastAncestor := if x = u then d' else (s.p.VI x).leastAncestor, sortedDFSChildList := (K x).sortedDFSChildList } := by
        intro K hK
        rw [hK]
        by_cases q1 : x = u
        · subst q1
          simp only [update_self, if_true]
        · simp only [update_of_ne q1, if_neg q1]
          by_cases q2 : x = p
          · subst q2; simp only [update_self]
          · simp only [update_of_ne q2, update_of_ne q1]
      exact hK _ rfl
    · refine .inr ⟨he, ?_, ?_⟩
      · show _ = some (kids, (update (update (update s.p.VI u _) p _) u _ p).sortedDFSChildList)
        rw [update_of_ne hpu, update_self]
        exact k5
      · intro x hx
        show (update (update (update s.p.VI u _) p _) u _ x).sortedDFSChildList = _
        by_cases q1 : x = u
        · subst q1; simp only [update_self]
        · simp only [update_of_ne q1, update_of_ne hx]
  · rw [if_neg he] at h5
    obtain rfl := Option.some.inj h5
    have he0 : e = 0 := not_not.1 he
    have h7' : update s.p.VI u { s.p.VI u with parent := p } u = ru2 := h7
    rw [update_self] at h7'
    subst h7'
    have hV : ∀ v, ((s.p.g.updV u fun r => { r with flags := r.flags ||| 1 }).updV u fun r => { r with index := d }).V v =
        if v = u then { s.p.g.V u with index := d, flags := (s.p.g.V u).flags ||| 1 } else s.p.g.V v := by
      intro v
      simp only [updV_V]
      by_cases q2 : v = u
      · subst q2; rw [if_pos rfl, if_pos rfl, if_pos rfl]
      · rw [if_neg q2, if_neg q2, if_neg q2]
    have hd' : d' = d := by
      simp only [getIndex, rdV] at h6
      rw [if_pos (by exact v1)] at h6
      simp only [Option.bind_eq_bind, Option.bind_some, Option.pure_def, Option.some.injEq] at h6
      rw [← h6]
      exact (congrArg VRec.index (hV u)).trans (by rw [if_pos rfl])
    subst hd'
    refine ⟨rfl, rfl, rfl, rfl, rfl, rfl, rfl, rfl, ?_, ?_, ?_, ?_, ?_, ?_, rfl⟩
    · intro f; simp only [if_pos he0, Nat.or_zero]; rfl
    · intro v q1 q2
      refine (hV v).trans ?_
      rw [if_neg q1]
    · refine (hV u).trans ?_
      rw [if_pos rfl]
    · exact fun hh => absurd hh he
    · intro x
      have hK : ∀ K : Nat → VInfo, K = update (update s.p.VI u { s.p.VI u with parent := p }) u
          { s.p.VI u with parent := p, leastAncestor := d' } →
          K x = { s.p.VI x with parent := if x = u then p else (s.p.VI x).parent, leastAncestor := if x = u then d' else (s.p.VI x).leastAncestor, sortedDFSChildList := (K x).sortedDFSChildList } := by
        intro K hK
        rw [hK]
        by_cases q1 : x = u
        · subst q1
          simp only [update_self, if_true]
        · simp only [update_of_ne q1, if_neg q1]
      exact hK _ rfl
    · refine .inl ⟨he0, rfl, ?_⟩
      intro x
      show (update (update s.p.VI u _) u _ x).sortedDFSChildList = _
      by_cases q1 : x = u
      · subst q1; simp only [update_self]
      · simp only [update_of_ne q1]

end Verif.Embed
