import Verif.Embed.InitSort

/-
The second loop of _EmbeddingInitialize for one vertex.
-/
namespace Verif.Embed
open Verif Verif.Graph Verif.EGraph Verif.DFS Function

theorem setNbr_some {g g' : Graph} {e x : Nat} (h : g.setNbr e x = some g') :
    e < g.eSize ∧ g' = g.updE e (fun r => { r with nbr := x }) := by
  by_cases he : e < g.eSize
  · rw [setNbr_eq he] at h; exact ⟨he, (Option.some.inj h).symm⟩
  · simp [setNbr, rdE, he] at h

theorem getArc_some {g : Graph} {v : Nat} {b : Bool} {x : Nat} (h : g.getArc v b = some x) : v < g.vSize ∧ x = (g.V v).link b := by
  by_cases he : v < g.vSize
  · rw [getArc_eq he] at h; exact ⟨he, (Option.some.inj h).symm⟩
  · simp [getArc, rdV, he] at h

theorem setExt_some {s s' : EGraph} {v : Nat} {b : Bool} {w : Nat} (h : s.setExt v b w = some s') :
    s' = { s with ext := fun x c => if x = v ∧ c = b then w else s.ext x c } := by
  unfold setExt at h
  split at h
  · exact (Option.some.inj h).symm
  · cases h

/-- Both links of an arc record. -/
def noLinks (r : ERec) : ERec := { r with next := 0, prev := 0 }

theorem setLink_both (r : ERec) : (r.setLink true 0).setLink false 0 = noLinks r := rfl

theorem fix_updE (g : Graph) (e : Nat) (f : ERec → ERec) : Fix g (g.updE e f) := by constructor <;> intros <;> rfl

theorem fix_updV (g : Graph) (v : Nat) (b : Bool) (x : Nat) : Fix g (g.updV v (·.setLink b x)) := by
  have key : ∀ y, ((g.updV v (·.setLink b x)).V y).index = (g.V y).index ∧ ((g.updV v (·.setLink b x)).V y).flags = (g.V y).flags := by
    intro y
    rw [updV_V]
    split
    · cases b <;> exact ⟨rfl, rfl⟩
    · exact ⟨rfl, rfl⟩
  exact ⟨rfl, rfl, rfl, rfl, rfl, rfl, rfl, fun y _ => (key y).1, fun y _ => (key y).2⟩

/-- What the second loop does for vertex `v`. -/
structure VStep (s : EGraph) (v l : Nat) (s' : EGraph) : Prop where
  fix : Fix s.p.g s'.p.g
  stack : s'.p.g.stack = s.p.g.stack
  V : ∀ x, x ≠ v → s'.p.g.V x = s.p.g.V x
  Vv : ∀ b, (s'.p.g.V v).link b = if (s.p.VI v).parent = 0 then 0 else twin ((s.p.g.V (v + s.p.g.N)).link false)
  E0 : (s.p.VI v).parent = 0 → s'.p.g.E = s.p.g.E
  E : (s.p.VI v).parent ≠ 0 → ∀ t, t = (s.p.g.V (v + s.p.g.N)).link false → ∀ e, s'.p.g.E e =
    if e = twin t then { noLinks (s.p.g.E e) with nbr := v + s.p.g.N } else if e = t then noLinks (s.p.g.E e) else s.p.g.E e
  VI : ∀ x, s'.p.VI x = if x = v then { s.p.VI v with visitedInfo := s.p.g.N, futurePertinentChild := (s.p.VI v).sortedDFSChildList, lowpoint := l } else s.p.VI x
  kids : s'.kids = s.kids
  roots : s'.roots = s.roots
  ext0 : (s.p.VI v).parent = 0 → s'.ext = s.ext
  ext : (s.p.VI v).parent ≠ 0 → ∀ x b, s'.ext x b = if x = v + s.p.g.N then v else if x = v then v + s.p.g.N else s.ext x b
  low : ∃ s1 : EGraph, s1.kids = s.kids ∧ s1.p.g.N = s.p.g.N ∧ (∀ x, (s1.p.VI x).lowpoint = (s.p.VI x).lowpoint) ∧
    s1.leastLow (s.p.VI v).sortedDFSChildList (1 + s.p.g.N) (s.p.VI v).sortedDFSChildList (s.p.VI v).leastAncestor = some l

theorem rootArcs_some {s s' : EGraph} {v : Nat} (h : s.rootArcs v = some s') :
    s' = s.setG ((s.p.g.updV v (·.setLink false 0)).updV v (·.setLink true 0)) := by
  unfold rootArcs at h
  simp only [Option.bind_eq_bind] at h
  rw [Option.bind_eq_some_iff] at h
  obtain ⟨g1, h1, h⟩ := h
  obtain ⟨_, rfl⟩ := setArc_some h1
  rw [Option.bind_eq_some_iff] at h
  obtain ⟨g2, h2, h⟩ := h
  obtain ⟨_, rfl⟩ := setArc_some h2
  exact (Option.some.inj h).symm

/-- The records of the singleton component. -/
def singleG (g : Graph) (v t : Nat) : Graph :=
  ((((((g.updE t (·.setLink true 0)).updE t (·.setLink false 0)).updE (twin t)
      (fun r => { r with nbr := v + g.N })).updV v (·.setLink false (twin t))).updV v (·.setLink true (twin t))).updE (twin t)
      (·.setLink true 0)).updE (twin t) (·.setLink false 0)

theorem singleG_some {g g' : Graph} {v e N : Nat} (h : (g.setAdj e true 0).bind (fun g => (g.setAdj e false 0).bind fun g =>
    (g.setNbr (twin e) (v + N)).bind fun g => (g.setArc v false (twin e)).bind fun g => (g.setArc v true (twin e)).bind fun g =>
    (g.setAdj (twin e) true 0).bind fun g => g.setAdj (twin e) false 0) = some g') (hN : N = g.N) : g' = singleG g v e := by
  subst hN
  rw [Option.bind_eq_some_iff] at h
  obtain ⟨g1, h1, h⟩ := h
  have h1 := (setAdj_some h1).2
  rw [Option.bind_eq_some_iff] at h
  obtain ⟨g2, h2, h⟩ := h
  have h2 := (setAdj_some h2).2
  rw [Option.bind_eq_some_iff] at h
  obtain ⟨g3, h3, h⟩ := h
  have h3 := (setNbr_some h3).2
  rw [Option.bind_eq_some_iff] at h
  obtain ⟨g4, h4, h⟩ := h
  have h4 := (setArc_some h4).2
  rw [Option.bind_eq_some_iff] at h
  obtain ⟨g5, h5, h⟩ := h
  have h5 := (setArc_some h5).2
  rw [Option.bind_eq_some_iff] at h
  obtain ⟨g6, h6, h⟩ := h
  have h6 := (setAdj_some h6).2
  have h7 := (setAdj_some h).2
  unfold singleG
  rw [h7, h6, h5, h4, h3, h2, h1]

theorem singleton_some {s s' : EGraph} {v : Nat} (h : s.singleton v = some s') : ∃ t, t = (s.p.g.V (v + s.p.g.N)).link false ∧
    s'.p.VI = s.p.VI ∧ s'.kids = s.kids ∧ s'.roots = s.roots ∧ s'.p.g = singleG s.p.g v t ∧
    ∀ x b, s'.ext x b = if x = v ∧ b = true then v + s.p.g.N else if x = v ∧ b = false then v + s.p.g.N else
      if x = v + s.p.g.N ∧ b = true then v else if x = v + s.p.g.N ∧ b = false then v else s.ext x b := by
  unfold EGraph.singleton at h
  simp only [Option.bind_eq_bind] at h
  rw [Option.bind_eq_some_iff] at h
  obtain ⟨t, ht, h⟩ := h
  obtain ⟨_, ht⟩ := getArc_some ht
  refine ⟨t, ht, ?_⟩
  clear ht
  generalize hN : s.p.g.N = N at *
  have hb : ∀ {X : Option Graph} {F : Graph → Option EGraph}, X.bind F = some s' → ∃ g, X = some g ∧ F g = some s' :=
    fun hh => Option.bind_eq_some_iff.1 hh
  have key : ∃ g, (s.p.g.setAdj t true 0).bind (fun g => (g.setAdj t false 0).bind fun g =>
      (g.setNbr (twin t) (v + N)).bind fun g => (g.setArc v false (twin t)).bind fun g => (g.setArc v true (twin t)).bind fun g =>
      (g.setAdj (twin t) true 0).bind fun g => g.setAdj (twin t) false 0) = some g ∧
      ((s.setG g).setExt (v + N) false v).bind (fun s => (s.setExt (v + N) true v).bind fun s => (s.setExt v false (v + N)).bind fun s =>
        s.setExt v true (v + N)) = some s' := by
    obtain ⟨g1, h1, h⟩ := hb h
    obtain ⟨g2, h2, h⟩ := hb h
    obtain ⟨g3, h3, h⟩ := hb h
    obtain ⟨g4, h4, h⟩ := hb h
    obtain ⟨g5, h5, h⟩ := hb h
    obtain ⟨g6, h6, h⟩ := hb h
    obtain ⟨g7, h7, h⟩ := hb h
    refine ⟨g7, ?_, h⟩
    rw [h1, Option.bind_some, h2, Option.bind_some, h3, Option.bind_some, h4, Option.bind_some, h5, Option.bind_some, h6, Option.bind_some, h7]
  obtain ⟨g, hg, h⟩ := key
  have hg := singleG_some hg hN.symm
  clear hb
  obtain ⟨s1, e1, h⟩ := Option.bind_eq_some_iff.1 h
  have e1 := setExt_some e1
  obtain ⟨s2, e2, h⟩ := Option.bind_eq_some_iff.1 h
  have e2 := setExt_some e2
  obtain ⟨s3, e3, h⟩ := Option.bind_eq_some_iff.1 h
  have e3 := setExt_some e3
  have e4 := setExt_some h
  rw [← hg]
  have a1 : s1.p = s.p.setG g ∧ s1.kids = s.kids ∧ s1.roots = s.roots := by rw [e1]; exact ⟨rfl, rfl, rfl⟩
  have a2 : s2.p = s1.p ∧ s2.kids = s1.kids ∧ s2.roots = s1.roots := by rw [e2]; exact ⟨rfl, rfl, rfl⟩
  have a3 : s3.p = s2.p ∧ s3.kids = s2.kids ∧ s3.roots = s2.roots := by rw [e3]; exact ⟨rfl, rfl, rfl⟩
  have a4 : s'.p = s3.p ∧ s'.kids = s3.kids ∧ s'.roots = s3.roots := by rw [e4]; exact ⟨rfl, rfl, rfl⟩
  have hp : s'.p = s.p.setG g := by rw [a4.1, a3.1, a2.1, a1.1]
  refine ⟨by rw [hp]; rfl, by rw [a4.2.1, a3.2.1, a2.2.1, a1.2.1], by rw [a4.2.2, a3.2.2, a2.2.2, a1.2.2], by rw [hp]; rfl, ?_⟩
  have b1 : ∀ x b, s1.ext x b = if x = v + N ∧ b = false then v else s.ext x b := by intro x b; rw [e1]; rfl
  have b2 : ∀ x b, s2.ext x b = if x = v + N ∧ b = true then v else s1.ext x b := by intro x b; rw [e2]
  have b3 : ∀ x b, s3.ext x b = if x = v ∧ b = false then v + N else s2.ext x b := by intro x b; rw [e3]
  have b4 : ∀ x b, s'.ext x b = if x = v ∧ b = true then v + N else s3.ext x b := by intro x b; rw [e4]
  intro x b
  rw [b4, b3, b2, b1]

theorem initVertex_some {s s' : EGraph} {v : Nat} (h : s.initVertex v = some s') : ∃ l, VStep s v l s' := by
  unfold initVertex at h
  simp only [Option.bind_eq_bind] at h
  rw [Option.bind_eq_some_iff] at h
  obtain ⟨r, h1, h⟩ := h
  obtain rfl := rdVI_some h1
  rw [Option.bind_eq_some_iff] at h
  obtain ⟨p1, h2, h⟩ := h
  have h2 := wrVI_some h2
  rw [Option.bind_eq_some_iff] at h
  obtain ⟨l, h3, h⟩ := h
  rw [Option.bind_eq_some_iff] at h
  obtain ⟨r, h4, h⟩ := h
  have h4 := rdVI_some h4
  rw [Option.bind_eq_some_iff] at h
  obtain ⟨p2, h5, h⟩ := h
  have h5 := wrVI_some h5
  rw [Option.bind_eq_some_iff] at h
  obtain ⟨q, h6, h⟩ := h
  have hg2 : p2.g = s.p.g := by rw [h5]; show p1.g = _; rw [h2]
  have hVI : ∀ x, p2.VI x = if x = v then { s.p.VI v with visitedInfo := s.p.g.N, futurePertinentChild := (s.p.VI v).sortedDFSChildList, lowpoint := l } else s.p.VI x := by
    intro x
    rw [h5]
    show update p1.VI v _ x = _
    by_cases hx : x = v
    · subst hx
      rw [if_pos rfl, update_self, ← h4]
      show ({ p1.VI x with lowpoint := l } : VInfo) = _
      rw [h2]
      show ({ update s.p.VI x _ x with lowpoint := l } : VInfo) = _
      rw [update_self]
    · rw [if_neg hx, update_of_ne hx, h2]
      exact update_of_ne hx _ _
  have hq : q = (s.p.VI v).parent := by
    have : p2.getParent v = some q := h6
    unfold PGraph.getParent at this
    simp only [Option.bind_eq_bind] at this
    rw [Option.bind_eq_some_iff] at this
    obtain ⟨r', q1, q2⟩ := this
    rw [← rdVI_some q1, hVI, if_pos rfl] at q2
    exact (Option.some.inj q2).symm
  have hlow : ∃ s1 : EGraph, s1.kids = s.kids ∧ s1.p.g.N = s.p.g.N ∧ (∀ x, (s1.p.VI x).lowpoint = (s.p.VI x).lowpoint) ∧
      s1.leastLow (s.p.VI v).sortedDFSChildList (1 + s.p.g.N) (s.p.VI v).sortedDFSChildList (s.p.VI v).leastAncestor = some l := by
    refine ⟨s.setP p1, rfl, ?_, ?_, ?_⟩
    · show p1.g.N = _; rw [h2]
    · intro x
      show (p1.VI x).lowpoint = _
      rw [h2]
      show (update s.p.VI v _ x).lowpoint = _
      by_cases hx : x = v
      · subst hx; rw [update_self]
      · rw [update_of_ne hx]
    · rw [← h3]
      show _ = (s.setP p1).leastLow _ (1 + p1.g.N) _ _
      rw [h2]
  refine ⟨l, ?_⟩
  have e1 : ∀ (s : EGraph) (p q : PGraph), (s.setP p).setP q = s.setP q := fun _ _ _ => rfl
  rw [e1] at h
  by_cases hq0 : q = 0
  · rw [if_pos hq0] at h
    have hp0 : (s.p.VI v).parent = 0 := hq ▸ hq0
    obtain rfl := rootArcs_some h
    have hp : (s.setP p2).p.g = s.p.g := hg2
    rw [hp]
    constructor
    · exact (fix_updV _ _ _ _).trans (fix_updV _ _ _ _)
    · rfl
    · intro x hx
      show ((s.p.g.updV v (·.setLink false 0)).updV v (·.setLink true 0)).V x = _
      rw [updV_V, updV_V, if_neg hx, if_neg hx]
    · intro b
      show (((s.p.g.updV v (·.setLink false 0)).updV v (·.setLink true 0)).V v).link b = _
      rw [updV_V, updV_V, if_pos rfl, if_pos rfl, if_pos hp0]
      cases b <;> rfl
    · intro _; rfl
    · intro hh; exact absurd hp0 hh
    · exact hVI
    · rfl
    · rfl
    · intro _; rfl
    · intro hh; exact absurd hp0 hh
    · exact hlow
  · rw [if_neg hq0] at h
    have hp0 : (s.p.VI v).parent ≠ 0 := hq ▸ hq0
    obtain ⟨t, t1, t2, t3, t4, t5, t6⟩ := singleton_some h
    have hp : (s.setP p2).p.g = s.p.g := hg2
    rw [hp] at t1 t5 t6
    constructor
    · rw [t5]
      exact (fix_updE _ _ _).trans ((fix_updE _ _ _).trans ((fix_updE _ _ _).trans ((fix_updV _ _ _ _).trans ((fix_updV _ _ _ _).trans
        ((fix_updE _ _ _).trans (fix_updE _ _ _))))))
    · rw [t5]; rfl
    · intro x hx
      rw [t5]
      simp only [singleG, updE_V]
      rw [updV_V, updV_V, if_neg hx, if_neg hx]; rfl
    · intro b
      rw [t5]
      simp only [singleG, updE_V]
      rw [updV_V, updV_V, if_pos rfl, if_pos rfl, if_neg hp0, ← t1]
      cases b <;> rfl
    · intro hh; exact absurd hh hp0
    · intro _ t' ht' e
      rw [← t1] at ht'
      subst ht'
      rw [t5]
      simp only [singleG, updE_E, updV_E]
      have htt := twin_ne t'
      by_cases h1 : e = twin t'
      · subst h1
        simp only [if_true, if_neg htt]; rfl
      · by_cases h2 : e = t'
        · subst h2
          simp only [if_true, if_neg h1]; rfl
        · simp only [if_neg h1, if_neg h2]
    · intro x; rw [t2]; exact hVI x
    · rw [t3]; rfl
    · rw [t4]; rfl
    · intro hh; exact absurd hh hp0
    · intro _ x b
      rw [t6]
      by_cases h1 : x = v
      · by_cases h2 : x = v + s.p.g.N
        · cases b
          · rw [if_neg (by simp), if_pos ⟨h1, rfl⟩, if_pos h2]; omega
          · rw [if_pos ⟨h1, rfl⟩, if_pos h2]; omega
        · rw [if_neg h2, if_pos h1]
          cases b
          · rw [if_neg (by simp), if_pos ⟨h1, rfl⟩]
          · rw [if_pos ⟨h1, rfl⟩]
      · rw [if_neg (by tauto), if_neg (by tauto), if_neg h1]
        by_cases h2 : x = v + s.p.g.N
        · rw [if_pos h2]
          cases b
          · rw [if_neg (by simp), if_pos ⟨h2, rfl⟩]
          · rw [if_pos ⟨h2, rfl⟩]
        · rw [if_neg (by tauto), if_neg (by tauto), if_neg h2]; rfl
    · exact hlow

/-- The least lowpoint of the children. -/
theorem leastLow_some {s : EGraph} {hd : Nat → Nat} {n : Nat} {kid : Nat → List Nat} (h : Lists s.kids hd n kid) {x : Nat} (hx : 1 ≤ x ∧ x ≤ n) :
    ∀ (fuel : Nat) (A T : List Nat) (l m : Nat), kid x = A ++ T → s.leastLow (hd x) fuel (T.headD 0) l = some m →
      m ≤ l ∧ (∀ c ∈ T, m ≤ (s.p.VI c).lowpoint) ∧ (m = l ∨ ∃ c ∈ T, m = (s.p.VI c).lowpoint) := by
  intro fuel
  induction fuel with
  | zero =>
    intro A T l m hk he
    unfold leastLow at he
    cases T with
    | nil => simp at he; subst he; simp
    | cons c T =>
      have := (h.bound x c (by rw [hk]; simp)).1
      rw [if_neg (by simp; omega)] at he; cases he
  | succ fuel ih =>
    intro A T l m hk he
    unfold leastLow at he
    cases T with
    | nil => simp at he; subst he; simp
    | cons c T =>
      have h0 := (h.bound x c (by rw [hk]; simp)).1
      have hc : (c :: T).headD 0 = c := rfl
      rw [hc, if_neg (by omega)] at he
      simp only [Option.bind_eq_bind] at he
      rw [Option.bind_eq_some_iff] at he
      obtain ⟨low, h1, he⟩ := he
      rw [Option.bind_eq_some_iff] at he
      obtain ⟨n', h2, he⟩ := he
      have h1 : low = (s.p.VI c).lowpoint := by
        unfold PGraph.getLowpoint at h1
        simp only [Option.bind_eq_bind] at h1
        rw [Option.bind_eq_some_iff] at h1
        obtain ⟨r, q1, q2⟩ := h1
        rw [rdVI_some q1]; exact (Option.some.inj q2).symm
      obtain ⟨q1, q2⟩ := h.next hx hk
      have h2 : n' = T.headD 0 := by
        unfold LC.getNext at h2
        rw [LC.rdNext_eq q1] at h2
        simp only [Option.bind_eq_bind, Option.bind_some] at h2
        rw [← q2]
        by_cases hh : s.kids.next c = hd x
        · rw [if_pos hh] at h2 ⊢; exact (Option.some.inj h2).symm
        · rw [if_neg hh] at h2 ⊢; exact (Option.some.inj h2).symm
      rw [h2] at he
      obtain ⟨k1, k2, k3⟩ := ih (A ++ [c]) T _ m (by rw [hk]; simp) he
      subst h1
      have : (if l > (s.p.VI c).lowpoint then (s.p.VI c).lowpoint else l) ≤ l ∧
          (if l > (s.p.VI c).lowpoint then (s.p.VI c).lowpoint else l) ≤ (s.p.VI c).lowpoint := by
        split <;> omega
      refine ⟨by omega, ?_, ?_⟩
      · intro y hy
        rcases List.mem_cons.1 hy with rfl | hy
        · omega
        · exact k2 y hy
      · rcases k3 with k3 | ⟨y, k3, k4⟩
        · by_cases hh : l > (s.p.VI c).lowpoint
          · rw [if_pos hh] at k3; exact .inr ⟨c, List.mem_cons_self, k3⟩
          · rw [if_neg hh] at k3; exact .inl k3
        · exact .inr ⟨y, List.mem_cons_of_mem _ k3, k4⟩

theorem leastLow_total {s : EGraph} {hd : Nat → Nat} {n : Nat} {kid : Nat → List Nat} (h : Lists s.kids hd n kid) {x : Nat} (hx : 1 ≤ x ∧ x ≤ n) :
    ∀ (fuel : Nat) (A T : List Nat) (l : Nat), kid x = A ++ T → T.length ≤ fuel → (∀ c ∈ T, c ≤ s.p.g.N) →
      ∃ m, s.leastLow (hd x) fuel (T.headD 0) l = some m := by
  intro fuel
  induction fuel with
  | zero =>
    intro A T l hk hf _
    have : T = [] := List.length_eq_zero_iff.1 (by omega)
    subst this
    exact ⟨l, rfl⟩
  | succ fuel ih =>
    intro A T l hk hf hN
    cases T with
    | nil => exact ⟨l, rfl⟩
    | cons c T =>
      have h0 := (h.bound x c (by rw [hk]; simp)).1
      unfold leastLow
      rw [List.headD_cons, if_neg (by omega)]
      unfold PGraph.getLowpoint
      rw [rdVI_ok (by have := hN c (by simp); omega)]
      simp only [Option.bind_eq_bind, Option.bind_some, Option.pure_def]
      obtain ⟨q1, q2⟩ := h.next hx hk
      unfold LC.getNext
      rw [LC.rdNext_eq q1]
      simp only [Option.bind_eq_bind, Option.bind_some]
      have h2 : (if s.kids.next c = hd x then pure 0 else some (s.kids.next c)) = some (T.headD 0) := by
        rw [← q2]; split <;> rfl
      rw [h2, Option.bind_some]
      exact ih (A ++ [c]) T _ (by rw [hk]; simp) (by rw [List.length_cons] at hf; omega) fun d hd => hN d (by simp [hd])

theorem rootArcs_total {s : EGraph} {v : Nat} (hv : v ≤ s.p.g.N) : ∃ s', s.rootArcs v = some s' := by
  have h1 : v < s.p.g.vSize := by unfold vSize; omega
  unfold rootArcs
  rw [setArc_eq h1]
  simp only [Option.bind_eq_bind, Option.bind_some]
  rw [setArc_eq (by exact h1)]
  exact ⟨_, rfl⟩

theorem setExt_ok {s : EGraph} {v : Nat} {b : Bool} {w : Nat} (h : v < s.p.g.vSize) :
    ∃ s', s.setExt v b w = some s' ∧ s'.p.g = s.p.g := ⟨_, if_pos h, rfl⟩

theorem setAdj_ex {g : Graph} {e : Nat} (b : Bool) (x : Nat) (h : e < g.eSize) :
    ∃ g', g.setAdj e b x = some g' ∧ g'.eSize = g.eSize ∧ g'.vSize = g.vSize := ⟨_, setAdj_eq h b x, rfl, rfl⟩
theorem setArc_ex {g : Graph} {v : Nat} (b : Bool) (x : Nat) (h : v < g.vSize) :
    ∃ g', g.setArc v b x = some g' ∧ g'.eSize = g.eSize ∧ g'.vSize = g.vSize := ⟨_, setArc_eq h b x, rfl, rfl⟩
theorem setNbr_ex {g : Graph} {e : Nat} (x : Nat) (h : e < g.eSize) :
    ∃ g', g.setNbr e x = some g' ∧ g'.eSize = g.eSize ∧ g'.vSize = g.vSize := ⟨_, setNbr_eq h x, rfl, rfl⟩

theorem singleton_total {s : EGraph} {v : Nat} (hv : v ≤ s.p.g.N) (h1 : (s.p.g.V (v + s.p.g.N)).link false < s.p.g.eSize)
    (h2 : twin ((s.p.g.V (v + s.p.g.N)).link false) < s.p.g.eSize) : ∃ s', s.singleton v = some s' := by
  have hR : v + s.p.g.N < s.p.g.vSize := by unfold vSize; omega
  have hv : v < s.p.g.vSize := by unfold vSize; omega
  unfold EGraph.singleton
  simp only [Option.bind_eq_bind]
  rw [getArc_eq hR, Option.bind_some]
  generalize (s.p.g.V (v + s.p.g.N)).link false = t at *
  generalize v + s.p.g.N = R at *
  obtain ⟨g1, e1, p1, q1⟩ := setAdj_ex (g := s.p.g) true 0 h1
  rw [e1, Option.bind_some]
  obtain ⟨g2, e2, p2, q2⟩ := setAdj_ex (g := g1) (e := t) false 0 (by omega)
  rw [e2, Option.bind_some]
  obtain ⟨g3, e3, p3, q3⟩ := setNbr_ex (g := g2) (e := twin t) R (by omega)
  rw [e3, Option.bind_some]
  obtain ⟨g4, e4, p4, q4⟩ := setArc_ex (g := g3) (v := v) false (twin t) (by omega)
  rw [e4, Option.bind_some]
  obtain ⟨g5, e5, p5, q5⟩ := setArc_ex (g := g4) (v := v) true (twin t) (by omega)
  rw [e5, Option.bind_some]
  obtain ⟨g6, e6, p6, q6⟩ := setAdj_ex (g := g5) (e := twin t) true 0 (by omega)
  rw [e6, Option.bind_some]
  obtain ⟨g7, e7, p7, q7⟩ := setAdj_ex (g := g6) (e := twin t) false 0 (by omega)
  rw [e7, Option.bind_some]
  have hs : (s.setG g7).p.g = g7 := rfl
  obtain ⟨s1, a1, b1⟩ := setExt_ok (s := s.setG g7) (v := R) (b := false) (w := v) (by rw [hs]; omega)
  rw [a1, Option.bind_some]
  rw [hs] at b1
  obtain ⟨s2, a2, b2⟩ := setExt_ok (s := s1) (v := R) (b := true) (w := v) (by rw [b1]; omega)
  rw [a2, Option.bind_some]
  obtain ⟨s3, a3, b3⟩ := setExt_ok (s := s2) (v := v) (b := false) (w := R) (by rw [b2, b1]; omega)
  rw [a3, Option.bind_some]
  obtain ⟨s4, a4, b4⟩ := setExt_ok (s := s3) (v := v) (b := true) (w := R) (by rw [b3, b2, b1]; omega)
  exact ⟨s4, a4⟩

theorem initVertex_total {s : EGraph} {v : Nat} (hv : v ≤ s.p.g.N)
    (hl : ∀ s1 : EGraph, s1.kids = s.kids → s1.p.g = s.p.g → ∃ l, s1.leastLow (s.p.VI v).sortedDFSChildList (1 + s.p.g.N)
      (s.p.VI v).sortedDFSChildList (s.p.VI v).leastAncestor = some l)
    (hp : (s.p.VI v).parent ≠ 0 → (s.p.g.V (v + s.p.g.N)).link false < s.p.g.eSize ∧
      twin ((s.p.g.V (v + s.p.g.N)).link false) < s.p.g.eSize) : ∃ s', s.initVertex v = some s' := by
  unfold initVertex
  rw [rdVI_ok (by omega)]
  simp only [Option.bind_eq_bind, Option.bind_some]
  rw [wrVI_ok _ (by omega), Option.bind_some]
  obtain ⟨l, h1⟩ := hl (s.setP { s.p with VI := update s.p.VI v { s.p.VI v with visitedInfo := s.p.g.N, futurePertinentChild := (s.p.VI v).sortedDFSChildList } }) rfl rfl
  have h1' : (s.setP { s.p with VI := update s.p.VI v { s.p.VI v with visitedInfo := s.p.g.N, futurePertinentChild := (s.p.VI v).sortedDFSChildList } }).leastLow
      (s.p.VI v).sortedDFSChildList (1 + (s.setP { s.p with VI := update s.p.VI v { s.p.VI v with visitedInfo := s.p.g.N, futurePertinentChild := (s.p.VI v).sortedDFSChildList } }).p.g.N)
      (s.p.VI v).sortedDFSChildList (s.p.VI v).leastAncestor = some l := h1
  rw [h1', Option.bind_some, rdVI_ok (by show v < 1 + s.p.g.N; omega), Option.bind_some, wrVI_ok _ (by show v < 1 + s.p.g.N; omega), Option.bind_some]
  unfold PGraph.getParent
  rw [rdVI_ok (by show v < 1 + s.p.g.N; omega)]
  simp only [Option.bind_eq_bind, Option.bind_some, Option.pure_def]
  have hpar : ∀ l, (update (update s.p.VI v { s.p.VI v with visitedInfo := s.p.g.N, futurePertinentChild := (s.p.VI v).sortedDFSChildList }) v
      { (update s.p.VI v { s.p.VI v with visitedInfo := s.p.g.N, futurePertinentChild := (s.p.VI v).sortedDFSChildList } v) with lowpoint := l } v).parent = (s.p.VI v).parent := by
    intro l; rw [update_self, update_self]
  split
  · exact rootArcs_total hv
  · next hq =>
    have hq' : (s.p.VI v).parent ≠ 0 := fun hh => hq ((hpar l).trans hh)
    exact singleton_total hv (hp hq').1 (hp hq').2

end Verif.Embed
