import Verif.Embed.Edge
import Verif.Embed.Init

/-
The list operations of _EmbeddingInitialize: taking the twin of a back arc out of its adjacency list and appending it to a
forward arc list.
-/
namespace Verif.Embed
open Verif Verif.Graph Verif.EGraph Function

/-- The graph without the records of virtual vertices. -/
def base (g : Graph) : Graph := { g with V := fun v => if v ≤ g.N then g.V v else {} }

theorem updE_ext {g : Graph} {a b : Nat} {f k : ERec → ERec} (h : ∀ r, f (k r) = k (f r)) :
    (g.updE a f).updE b k = (g.updE b k).updE a f := by
  have : ((g.updE a f).updE b k).E = ((g.updE b k).updE a f).E := by
    funext e
    simp only [updE_E]
    by_cases h1 : e = b
    · by_cases h2 : e = a
      · rw [if_pos h1, if_pos h2, if_pos h2, if_pos h1, h]
      · rw [if_pos h1, if_neg h2, if_neg h2, if_pos h1]
    · by_cases h2 : e = a
      · rw [if_neg h1, if_pos h2, if_pos h2, if_neg h1]
      · rw [if_neg h1, if_neg h2, if_neg h2, if_neg h1]
  calc (g.updE a f).updE b k = { g with E := ((g.updE a f).updE b k).E } := rfl
    _ = { g with E := ((g.updE b k).updE a f).E } := by rw [this]
    _ = _ := rfl

theorem updV_ext {g : Graph} {a b : Nat} {f k : VRec → VRec} (h : ∀ r, f (k r) = k (f r)) :
    (g.updV a f).updV b k = (g.updV b k).updV a f := by
  have : ((g.updV a f).updV b k).V = ((g.updV b k).updV a f).V := by
    funext e
    simp only [updV_V]
    by_cases h1 : e = b
    · by_cases h2 : e = a
      · rw [if_pos h1, if_pos h2, if_pos h2, if_pos h1, h]
      · rw [if_pos h1, if_neg h2, if_neg h2, if_pos h1]
    · by_cases h2 : e = a
      · rw [if_neg h1, if_pos h2, if_pos h2, if_neg h1]
      · rw [if_neg h1, if_neg h2, if_neg h2, if_neg h1]
  calc (g.updV a f).updV b k = { g with V := ((g.updV a f).updV b k).V } := rfl
    _ = { g with V := ((g.updV b k).updV a f).V } := by rw [this]
    _ = _ := rfl

theorem base_updE (g : Graph) (a f) : base (g.updE a f) = (base g).updE a f := rfl
theorem base_updV (g : Graph) {a} (f) (ha : a ≤ g.N) : base (g.updV a f) = (base g).updV a f := by
  have : (base (g.updV a f)).V = ((base g).updV a f).V := by
    funext v
    show (if v ≤ g.N then (g.updV a f).V v else {}) = _
    rw [updV_V, updV_V]
    by_cases hv : v = a
    · subst hv; rw [if_pos ha, if_pos rfl, if_pos rfl]; simp [base, ha]
    · rw [if_neg hv, if_neg hv]; rfl
  calc base (g.updV a f) = { g with V := (base (g.updV a f)).V } := rfl
    _ = { g with V := ((base g).updV a f).V } := by rw [this]
    _ = _ := rfl

theorem setLinkE_comm (r : ERec) (x y : Nat) : (r.setLink true y).setLink false x = (r.setLink false x).setLink true y := rfl
theorem setLinkV_comm (r : VRec) (x y : Nat) : (r.setLink true y).setLink false x = (r.setLink false x).setLink true y := rfl

theorem setAdj_some {g g' : Graph} {e : Nat} {b : Bool} {x : Nat} (h : g.setAdj e b x = some g') :
    e < g.eSize ∧ g' = g.updE e (·.setLink b x) := by
  by_cases he : e < g.eSize
  · rw [setAdj_eq he] at h; exact ⟨he, (Option.some.inj h).symm⟩
  · simp [setAdj, rdE, he] at h
theorem setArc_some {g g' : Graph} {v : Nat} {b : Bool} {x : Nat} (h : g.setArc v b x = some g') :
    v < g.vSize ∧ g' = g.updV v (·.setLink b x) := by
  by_cases he : v < g.vSize
  · rw [setArc_eq he] at h; exact ⟨he, (Option.some.inj h).symm⟩
  · simp [setArc, rdV, he] at h
theorem getAdj_some {g : Graph} {e : Nat} {b : Bool} {x : Nat} (h : g.getAdj e b = some x) : e < g.eSize ∧ (g.E e).link b = x := by
  by_cases he : e < g.eSize
  · rw [getAdj_eq he] at h; exact ⟨he, Option.some.inj h⟩
  · simp [getAdj, rdE, he] at h

theorem unlinkTwin_base {g g' : Graph} {w t : Nat} (hw : w ≤ g.N) (hn : (g.E (twin t)).nbr = w) (ht : twin t < g.eSize)
    (h : unlinkTwin g w t = some g') : (base g).detachArc t = some (base g') ∧ ∀ v, g.N < v → g'.V v = g.V v := by
  unfold unlinkTwin at h
  rw [Option.bind_eq_bind, Option.bind_eq_some_iff] at h
  obtain ⟨pr, h1, h⟩ := h
  rw [Option.bind_eq_bind, Option.bind_eq_some_iff] at h
  obtain ⟨nx, h2, h⟩ := h
  obtain ⟨hte, h1⟩ := getAdj_some h1
  obtain ⟨_, h2⟩ := getAdj_some h2
  have hwv : w < g.vSize := by unfold vSize; omega
  have hb1 : (base g).getAdj t false = some nx := by rw [← h2]; exact getAdj_eq (g := base g) hte false
  have hb2 : (base g).getAdj t true = some pr := by rw [← h1]; exact getAdj_eq (g := base g) hte true
  have hnb : ∀ g1 : Graph, g1.eSize = g.eSize → (∀ e, (g1.E e).nbr = (g.E e).nbr) → g1.getNbr (twin t) = some w := by
    intro g1 e1 e2; rw [getNbr_eq (by rw [e1]; exact ht), e2, hn]
  have hbn := hnb (base g) rfl (fun _ => rfl)
  unfold detachArc
  simp only [hb1, hb2, Option.bind_eq_bind, Option.bind_some]
  by_cases hp : pr ≠ 0 <;> by_cases hx : nx ≠ 0 <;> simp only [hp, hx, ne_eq, not_true_eq_false, not_false_eq_true, if_true, if_false, Option.bind_eq_bind, Option.bind_eq_some_iff] at h <;>
    obtain ⟨g1, h3, h4⟩ := h
  · obtain ⟨a1, rfl⟩ := setAdj_some h3
    obtain ⟨a2, rfl⟩ := setAdj_some h4
    rw [if_pos hx, setAdj_eq (g := base g) (e := nx) a2, Option.bind_some, if_pos hp, setAdj_eq (by exact a1)]
    refine ⟨?_, fun _ _ => rfl⟩
    rw [base_updE, base_updE]
    exact congrArg some (updE_ext (fun _ => rfl))
  · obtain ⟨a1, rfl⟩ := setAdj_some h3
    obtain ⟨a2, rfl⟩ := setArc_some h4
    rw [if_neg hx, hbn, Option.bind_some, setArc_eq (g := base g) (by exact hwv), Option.bind_some, if_pos hp, setAdj_eq (by exact a1)]
    refine ⟨?_, fun v hv => ?_⟩
    · rw [base_updV _ _ (by exact hw), base_updE]; rfl
    · rw [updV_V, if_neg (by omega)]; rfl
  · obtain ⟨a1, rfl⟩ := setArc_some h3
    obtain ⟨a2, rfl⟩ := setAdj_some h4
    rw [if_pos hx, setAdj_eq (g := base g) (e := nx) a2, Option.bind_some, if_neg hp, hnb, Option.bind_some, setArc_eq (by exact hwv)]
    rotate_left
    · rfl
    · intro e; rw [updE_E]; split
      · simp [base]
      · rfl
    refine ⟨?_, fun v hv => ?_⟩
    · rw [base_updE, base_updV _ _ (by exact hw)]; rfl
    · rw [updE_V, updV_V, if_neg (by omega)]
  · obtain ⟨a1, rfl⟩ := setArc_some h3
    obtain ⟨a2, rfl⟩ := setArc_some h4
    rw [if_neg hx, hbn, Option.bind_some, setArc_eq (g := base g) (by exact hwv), Option.bind_some, if_neg hp, hnb, Option.bind_some, setArc_eq (by exact hwv)]
    rotate_left
    · rfl
    · intro e; rfl
    refine ⟨?_, fun v hv => ?_⟩
    · rw [base_updV _ _ (by exact hw), base_updV _ _ (by exact hw)]
      exact congrArg some (updV_ext (fun _ => rfl))
    · rw [updV_V, if_neg (by omega), updV_V, if_neg (by omega)]

/-- Taking the twin of a back arc out of the list of its vertex. -/
theorem unlinkTwin_spec {g g' : Graph} {cur : Nat → List Nat} (h : Links (base g) cur) {w t : Nat} (hw : w ≤ g.N)
    (hn : (g.E (twin t)).nbr = w) (ht : twin t < g.eSize) (hm : t ∈ cur w) (hu : unlinkTwin g w t = some g') :
    Links (base g') (update cur w (without t (cur w))) ∧ SameBut g g' ∧ (∀ e, (∀ w, e ∉ cur w) → g'.E e = g.E e) ∧
      ∀ v, g.N < v → g'.V v = g.V v := by
  obtain ⟨h1, h2⟩ := unlinkTwin_base hw hn ht hu
  obtain ⟨gb, e1, e2, e3, e4, _, _⟩ := detachArc_spec h hm (by exact ht) (by exact hn)
  rw [h1] at e1
  obtain rfl := Option.some.inj e1
  have hN : g'.N = g.N := e3.N
  refine ⟨e2, ⟨e3.N, e3.M, e3.arcCap, e3.holes, e3.holesCap, e3.stack, e3.stackCap, e3.flags, e3.nbr, e3.eflags, fun v => ?_, fun v => ?_⟩, e4, h2⟩
  · by_cases hv : v ≤ g.N
    · have := e3.index v; simpa [base, hN, hv] using this
    · rw [h2 v (by omega)]
  · by_cases hv : v ≤ g.N
    · have := e3.vflags v; simpa [base, hN, hv] using this
    · rw [h2 v (by omega)]

/-- Appending to a forward arc list. -/
theorem linkFwd_spec {p p' : PGraph} {n : Nat} {fw : Nat → List Nat} (h : Lists (arcs p.g) (fwh p) n fw) {w t : Nat}
    (hn : n = p.g.N) (h1 : 1 ≤ w) (h2 : w ≤ n) (ht : 0 < t) (ht2 : t < p.g.eSize) (hf : ∀ x, t ∉ fw x) (he : linkFwd p w t = some p') :
    Lists (arcs p'.g) (fwh p') n (update fw w (fw w ++ [t])) ∧ SameBut p.g p'.g ∧ p'.g.V = p.g.V ∧
      (∀ x, p'.VI x = { p.VI x with fwdArcList := fwh p' x }) ∧
      ∀ e, e ≠ t → e ∉ fw w → p'.g.E e = p.g.E e := by
  obtain ⟨c', h', e1, e2, e3⟩ := h.append h1 h2 (x := t) ⟨ht, ht2⟩ hf
  have hcw : w < 1 + p.g.N := by omega
  unfold linkFwd at he
  rw [show p.rdVI w = some (p.VI w) by simp [PGraph.rdVI, hcw]] at he
  simp only [Option.bind_eq_bind, Option.bind_some] at he
  by_cases hz : (p.VI w).fwdArcList ≠ 0
  · rw [if_pos hz] at he
    simp only [Option.bind_eq_some_iff] at he
    obtain ⟨pr, a1, g1, a2, g2, a3, g3, a4, g4, a5, a6⟩ := he
    obtain ⟨b1, a1⟩ := getAdj_some a1
    obtain ⟨b2, rfl⟩ := setAdj_some a2
    obtain ⟨b3, rfl⟩ := setAdj_some a3
    obtain ⟨b4, rfl⟩ := setAdj_some a4
    obtain ⟨b5, rfl⟩ := setAdj_some a5
    obtain rfl := Option.some.inj a6
    have hfne : fw w ≠ [] := fun hh => hz ((h.zero h1 h2).2 hh)
    have hfm : (p.VI w).fwdArcList ∈ fw w := by
      have := h.head w h1 h2
      show fwh p w ∈ _
      rw [this]
      cases hL : fw w with
      | nil => exact absurd hL hfne
      | cons a T => simp
    have hft : (p.VI w).fwdArcList ≠ t := fun hh => hf w (hh ▸ hfm)
    have hprm : pr ∈ fw w := by
      have hr := h.ring w
      rcases List.eq_nil_or_concat (fw w) with hL | ⟨T, y, hL⟩
      · exact absurd hL hfne
      · rw [List.concat_eq_append] at hL
        rw [hL] at hr
        have hq : (T ++ [y]).head? = some (p.VI w).fwdArcList := by
          have := h.head w h1 h2
          rw [hL] at this
          show _ = some (fwh p w)
          rw [this]; cases T <;> rfl
        have := (LC.ring_last hr _ hq).1
        rw [← a1, hL]
        have h3 : (p.g.E (p.VI w).fwdArcList).link true = y := this
        rw [h3]; simp
    have hpt : pr ≠ t := fun hh => hf w (hh ▸ hprm)
    have hprl : pr < p.g.eSize := b5
    have hc : c' = arcs ((((p.g.updE t (·.setLink true pr)).updE t (·.setLink false (p.VI w).fwdArcList)).updE
        (p.VI w).fwdArcList (·.setLink true t)).updE pr (·.setLink false t)) ∧ h' = fwh p w := by
      unfold LC.append at e1
      rw [if_neg (show ¬ fwh p w = 0 from hz)] at e1
      unfold LC.linkBefore at e1
      rw [LC.wrNext_eq (by exact ht2)] at e1
      simp only [Option.bind_eq_bind, Option.bind_some] at e1
      rw [LC.rdPrev_eq (by exact b1)] at e1
      simp only [Option.bind_some] at e1
      rw [LC.wrPrev_eq (by exact ht2)] at e1
      simp only [Option.bind_some] at e1
      rw [LC.rdPrev_eq (by exact ht2)] at e1
      simp only [Option.bind_some, if_true] at e1
      have hpr2 : (arcs p.g).prev (fwh p w) = pr := a1
      rw [hpr2, LC.wrNext_eq (by exact b5)] at e1
      simp only [Option.bind_some] at e1
      rw [LC.wrPrev_eq (by exact b1)] at e1
      simp only [Option.bind_some, Option.pure_def, Option.some.injEq, Prod.mk.injEq] at e1
      refine ⟨?_, e1.2.symm⟩
      rw [← e1.1]
      unfold arcs
      congr 1
      · funext j
        simp only [updE_E]
        have hfw : fwh p w = (p.VI w).fwdArcList := rfl
        rw [hfw]
        by_cases j1 : j = (p.VI w).fwdArcList <;> by_cases j2 : j = t <;> by_cases j3 : j = pr <;> simp [j1, j2, j3] <;> simp_all
      · funext j
        simp only [updE_E]
        have hfw : fwh p w = (p.VI w).fwdArcList := rfl
        rw [hfw]
        by_cases j1 : j = (p.VI w).fwdArcList <;> by_cases j2 : j = t <;> by_cases j3 : j = pr <;> simp [j1, j2, j3] <;> simp_all
    refine ⟨?_, ?_, rfl, fun x => rfl, ?_⟩
    · rw [hc.1, hc.2] at e3
      have : update (fwh p) w (fwh p w) = fwh p := update_eq_self _ _
      rw [this] at e3
      exact e3
    · exact (sameBut_setLinkE _ t true pr).trans <| (sameBut_setLinkE _ t false _).trans <|
        (sameBut_setLinkE _ _ true t).trans <| sameBut_setLinkE _ pr false t
    · intro e h3 h4
      simp only [PGraph.setG]
      rw [updE_E, if_neg (show ¬ e = pr from fun hh => h4 (hh ▸ hprm)), updE_E, if_neg (show ¬ e = (p.VI w).fwdArcList from fun hh => h4 (hh ▸ hfm)), updE_E, if_neg h3, updE_E, if_neg h3]
  · rw [if_neg hz] at he
    simp only [Option.bind_eq_some_iff] at he
    obtain ⟨p1, a1, g1, a2, g2, a3, a6⟩ := he
    have a1' : p1 = { p with VI := update p.VI w { p.VI w with fwdArcList := t } } := by
      simp only [PGraph.wrVI, hcw, if_true, Option.some.injEq] at a1; exact a1.symm
    subst a1'
    obtain ⟨b2, rfl⟩ := setAdj_some a2
    obtain ⟨b3, rfl⟩ := setAdj_some a3
    obtain rfl := Option.some.inj a6
    have hc : c' = arcs ((p.g.updE t (·.setLink true t)).updE t (·.setLink false t)) ∧ h' = t := by
      unfold LC.append at e1
      rw [if_pos (show fwh p w = 0 from not_not.1 hz)] at e1
      unfold LC.single at e1
      rw [LC.wrNext_eq (by exact ht2)] at e1
      simp only [Option.bind_eq_bind, Option.bind_some] at e1
      rw [LC.wrPrev_eq (by exact ht2)] at e1
      simp only [Option.bind_some, Option.pure_def, Option.some.injEq, Prod.mk.injEq] at e1
      refine ⟨?_, e1.2.symm⟩
      rw [← e1.1]
      unfold arcs
      congr 1
      · funext j
        simp only [updE_E]
        by_cases j1 : j = t <;> simp [j1]
      · funext j
        simp only [updE_E]
        by_cases j1 : j = t <;> simp [j1]
    have hfw : ∀ x, (update p.VI w { p.VI w with fwdArcList := t } x).fwdArcList = update (fwh p) w t x := by
      intro x
      by_cases hx : x = w
      · subst hx; simp
      · rw [update_of_ne hx, update_of_ne hx]; rfl
    refine ⟨?_, ?_, rfl, fun x => ?_, ?_⟩
    · rw [hc.1, hc.2] at e3
      refine e3.congr rfl (fun z _ _ => hfw z) fun _ _ _ => ⟨rfl, rfl⟩
    · exact (sameBut_setLinkE _ t true t).trans <| (sameBut_setLinkE _ t false _)
    · show update p.VI w _ x = { p.VI x with fwdArcList := (update p.VI w { p.VI w with fwdArcList := t } x).fwdArcList }
      by_cases hx : x = w
      · subst hx; simp
      · rw [update_of_ne hx]
    · intro e h3 h4
      simp only [PGraph.setG]
      rw [updE_E, if_neg h3, updE_E, if_neg h3]

/-- Taking an arc out of its list is defined. -/
theorem unlinkTwin_total {g : Graph} {cur : Nat → List Nat} (h : Links (base g) cur) {w t : Nat} (hw : w ≤ g.N) (hm : t ∈ cur w) :
    ∃ g', unlinkTwin g w t = some g' := by
  have ht : t < g.eSize := (h.arc w t hm).2
  have hv : w < g.vSize := by unfold vSize; omega
  have key : ∀ b, (g.E t).link b = 0 ∨ (g.E t).link b < g.eSize := by
    intro b
    have h1 : (g.E t).link b = nextIn (dir b (cur w)) t := h.elink w b t hm
    rcases nextIn_mem_or (dir b (cur w)) t with h2 | h2
    · exact .inl (h1.trans h2)
    · rw [h1]; exact .inr (h.arc w _ (mem_dir.1 h2)).2
  unfold unlinkTwin
  rw [getAdj_eq ht, getAdj_eq ht]
  simp only [Option.bind_eq_bind, Option.bind_some]
  have fin : ∀ g1 : Graph, g1.eSize = g.eSize → g1.vSize = g.vSize → ∃ g', (if (g.E t).link false ≠ 0 then
      g1.setAdj ((g.E t).link false) true ((g.E t).link true) else g1.setArc w true ((g.E t).link true)) = some g' := by
    intro g1 h2 h3
    by_cases h0 : (g.E t).link false ≠ 0
    · rw [if_pos h0, setAdj_eq (by rw [h2]; exact (key false).resolve_left h0)]; exact ⟨_, rfl⟩
    · rw [if_neg h0, setArc_eq (by rw [h3]; exact hv)]; exact ⟨_, rfl⟩
  by_cases h0 : (g.E t).link true ≠ 0
  · rw [if_pos h0, setAdj_eq ((key true).resolve_left h0), Option.bind_some]; exact fin _ rfl rfl
  · rw [if_neg h0, setArc_eq hv, Option.bind_some]; exact fin _ rfl rfl

/-- Appending to a forward arc list is defined. -/
theorem linkFwd_total {p : PGraph} {n : Nat} {fw : Nat → List Nat} (h : Lists (arcs p.g) (fwh p) n fw) {w t : Nat}
    (hn : n = p.g.N) (h1 : 1 ≤ w) (h2 : w ≤ n) (ht2 : t < p.g.eSize) : ∃ p', linkFwd p w t = some p' := by
  have hcw : w < 1 + p.g.N := by omega
  unfold linkFwd
  rw [show p.rdVI w = some (p.VI w) by simp [PGraph.rdVI, hcw]]
  simp only [Option.bind_eq_bind, Option.bind_some]
  by_cases hz : (p.VI w).fwdArcList ≠ 0
  · rw [if_pos hz]
    have hfne : fw w ≠ [] := fun hh => hz ((h.zero h1 h2).2 hh)
    have hfm : (p.VI w).fwdArcList ∈ fw w := by
      have := h.head w h1 h2
      show fwh p w ∈ _
      rw [this]
      cases hL : fw w with
      | nil => exact absurd hL hfne
      | cons a T => simp
    have hprm : (p.g.E (p.VI w).fwdArcList).link true ∈ fw w := by
      have hr := h.ring w
      rcases List.eq_nil_or_concat (fw w) with hL | ⟨T, y, hL⟩
      · exact absurd hL hfne
      · rw [List.concat_eq_append] at hL
        rw [hL] at hr
        have hq : (T ++ [y]).head? = some (p.VI w).fwdArcList := by
          have := h.head w h1 h2
          rw [hL] at this
          show _ = some (fwh p w)
          rw [this]; cases T <;> rfl
        have h3 : (p.g.E (p.VI w).fwdArcList).link true = y := (LC.ring_last hr _ hq).1
        rw [h3, hL]; simp
    have b1 : (p.VI w).fwdArcList < p.g.eSize := (h.bound w _ hfm).2
    have b2 : (p.g.E (p.VI w).fwdArcList).link true < p.g.eSize := (h.bound w _ hprm).2
    rw [getAdj_eq b1, Option.bind_some, setAdj_eq ht2, Option.bind_some, setAdj_eq (by exact ht2), Option.bind_some,
      setAdj_eq (by exact b1), Option.bind_some, setAdj_eq (by exact b2)]
    exact ⟨_, rfl⟩
  · rw [if_neg hz]
    rw [show p.wrVI w { p.VI w with fwdArcList := t } = some { p with VI := update p.VI w { p.VI w with fwdArcList := t } } by
      simp [PGraph.wrVI, hcw]]
    rw [Option.bind_some, setAdj_eq (by exact ht2), Option.bind_some, setAdj_eq (by exact ht2)]
    exact ⟨_, rfl⟩

end Verif.Embed
