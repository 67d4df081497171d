import Verif.Embed.InitLoop

/-
The search of _EmbeddingInitialize as a whole.
-/
namespace Verif.Embed
open Verif Verif.Graph Verif.EGraph Verif.DFS Function

variable {s0 : PGraph} {rot : Nat → List Nat} {r : Rec} {order : List Nat} {s : EGraph}

/-- The back arcs between visited vertices. -/
def backOf (s0 : PGraph) (rot : Nat → List Nat) (r : Rec) (order : List Nat) (e : Nat) : Prop :=
  ∃ u ∈ order, e ∈ rot u ∧ hdOf s0 e ∈ order ∧ r.idx (hdOf s0 e) < r.idx u ∧ r.par u ≠ hdOf s0 e

/-- The state between visits. -/
structure SrchAt (s0 : PGraph) (rot : Nat → List Nat) (r : Rec) (order : List Nat) (stk : List (Nat × Nat)) (s : EGraph) : Prop where
  dinv : DInv s0.g.N rot (hdOf s0) r order stk
  frame : Frame s0 rot r order
  srch : ∃ cur fw kid, Srch s0 rot r order (flat stk) (backOf s0 rot r order) cur fw kid s

theorem visit_spec (hS : Start s0 rot) (hsim : Simple s0 rot) {stk0 stk : List (Nat × Nat)}
    (D : DInv s0.g.N rot (hdOf s0) r order stk0) (F : Frame s0 rot r order) {cur fw kid : Nat → List Nat}
    (h : Srch s0 rot r order (flat stk) (backOf s0 rot r order) cur fw kid s)
    {u p e : Nat} {ty' : Nat → Nat} (hu : 1 ≤ u ∧ u ≤ s0.g.N) (hn : u ∉ order)
    (hc : (p = 0 ∧ e = 0 ∧ ty' = r.ty ∧ stk0 = [] ∧ stk = []) ∨
      (stk0 = (p, e) :: stk ∧ hdOf s0 e = u ∧ ty' = treeTy r.ty e))
    : ∃ s', s.initVisit u p e (order.length + 1) = some s' ∧
    SrchAt s0 rot (r.visit u (order.length + 1) p ty') (u :: order) (pushed rot (hdOf s0) order u ++ stk) s' := by
  have hst := hS.static
  have hq : stk0 = (p, e) :: stk → p ∈ order ∧ e ∈ rot p := by
    intro hh; obtain ⟨q1, q2, _⟩ := D.stkIn (p, e) (by rw [hh]; simp); exact ⟨q1, q2⟩
  have D' : DInv s0.g.N rot (hdOf s0) (r.visit u (order.length + 1) p ty') (u :: order) (pushed rot (hdOf s0) order u ++ stk) := by
    refine D.visit hst hu hn ?_
    rcases hc with ⟨c1, c2, c3, c4, c5⟩ | ⟨c1, c2, c3⟩
    · exact .inl ⟨c1, c3, c4, c5⟩
    · have := D.range _ (hq c1).1
      exact .inr ⟨by omega, e, c1, c2, c3⟩
  have F' : Frame s0 rot (r.visit u (order.length + 1) p ty') (u :: order) := by
    refine F.visit hst ?_
    rcases hc with ⟨c1, c2, c3, c4, c5⟩ | ⟨c1, c2, c3⟩
    · exact .inl c3
    · exact .inr ⟨p, e, (hq c1).2, c3⟩
  have hup : e ≠ 0 → p ≠ u := by
    intro h0 hh
    rcases hc with ⟨c1, c2, c3, c4, c5⟩ | ⟨c1, c2, c3⟩
    · exact h0 c2
    · exact hn (hh ▸ (hq c1).1)
  have hlen : order.length + 1 ≤ s0.g.N := by
    have := order_length (N := s0.g.N) (L := u :: order) (List.nodup_cons.2 ⟨hn, D.nodup⟩) (by
      intro x hx
      rcases List.mem_cons.1 hx with rfl | hx
      · exact hu
      · exact D.range x hx)
    simpa using this
  have hSz : s.p.g.eSize = s0.g.eSize := by unfold eSize; rw [h.arcCap]
  obtain ⟨s1, hs1⟩ : ∃ s1, enterPart s u p e (order.length + 1) = some s1 := by
    refine enterPart_total (by rw [h.N]; exact hu.2) (by rw [h.N]; exact hlen) ?_
    rcases hc with ⟨c1, c2, c3, c4, c5⟩ | ⟨c1, c2, c3⟩
    · exact .inl c2
    · obtain ⟨q1, q2⟩ := hq c1
      have q3 := D.range _ q1
      have hnew : ∀ x, order.length + 1 ∉ kid x := by
        intro x hx
        obtain ⟨v, v1, _, _, v4⟩ := (h.inKid x _).1 hx
        have := (D.idxR v v1).2
        omega
      obtain ⟨c', h', a1, _⟩ := h.kl.append (z := p) (x := order.length + 1) q3.1 q3.2 ⟨by omega, by rw [h.kN]; omega⟩ hnew
      exact .inr ⟨by rw [hSz]; exact (hS.inv.links.arc _ _ q2).2, by rw [hSz]; exact (hS.inv.links.arc _ _ (hst.twins _ _ q2)).2,
        by rw [h.N]; exact q3.2, fun hh => hn (hh ▸ q1), _, a1⟩
  have h1 := enter_some (by rw [h.N]; exact hu.2) (by omega) hup hs1
  obtain ⟨kid', h4⟩ := h.enter hS D (ty' := ty') hu hn (by
    rcases hc with ⟨c1, c2, c3, c4, c5⟩ | ⟨c1, c2, c3⟩
    · exact .inl ⟨c1, c2, c3⟩
    · exact .inr ⟨(hq c1).1, (hq c1).2, c2, c3⟩) h1
  have hi : ∀ x ∈ order, (r.visit u (order.length + 1) p ty').idx x = r.idx x := fun x hx =>
    update_of_ne (fun hh => hn (by rw [← hh]; exact hx)) _ _
  have hp : ∀ x ∈ order, (r.visit u (order.length + 1) p ty').par x = r.par x := fun x hx =>
    update_of_ne (fun hh => hn (by rw [← hh]; exact hx)) _ _
  have hiu : (r.visit u (order.length + 1) p ty').idx u = order.length + 1 := update_self _ _ _
  have hcu : cur u = rot u := h.cur0 u hn
  have hv : u < s1.p.g.vSize := by unfold vSize; rw [h4.N]; omega
  have hf : (s1.p.g.V u).link false = (rot u).headD 0 := by
    have := h4.links.vlink u false (by exact hv)
    have h5 : (if u ≤ s1.p.g.N then s1.p.g.V u else {}).link false = endIn false (cur u) := this
    rw [if_pos (by rw [h4.N]; exact hu.2)] at h5
    rw [h5, hcu]; rfl
  have hmax : ∀ x ∈ u :: order, x ≠ u → (r.visit u (order.length + 1) p ty').idx x < (r.visit u (order.length + 1) p ty').idx u := by
    intro x hx hxu
    have hx := (List.mem_cons.1 hx).resolve_left hxu
    rw [hi x hx, hiu]; have := (D.idxR x hx).2; omega
  have hB0 : ∀ e ∈ rot u, ¬ backOf s0 rot r order e := by
    rintro e he ⟨x, x1, x2, _⟩
    rw [hst.disj x2 he] at x1; exact hn x1
  have hB1 : ∀ e, backOf s0 rot r order e → hdOf s0 e ∈ u :: order := by
    rintro e ⟨x, x1, x2, x3, _⟩; exact List.mem_cons_of_mem _ x3
  have hB2 : ∀ e, backOf s0 rot r order (twin e) → e ∉ rot u := by
    rintro e ⟨x, x1, x2, x3, _⟩ he
    have : hdOf s0 (twin e) = u := hst.owner u e he
    rw [this] at x3; exact hn x3
  have hpush : flat (pushed rot (hdOf s0) order u ++ stk) = flat (pushes s0 (u :: order) u ([] ++ rot u)) ++ flat stk := by
    rw [flat_append]; rfl
  obtain ⟨p', cur', fw', h3, h5⟩ := initArcs_spec hS hsim D' (u := u) (by simp) hmax hB0 hB1 hB2 (st := flat stk) (rot u) [] s1.p.g.eSize cur fw s1
    rfl hcu (by
      have : backs s0 (r.visit u (order.length + 1) p ty') (u :: order) u (backOf s0 rot r order) [] = backOf s0 rot r order := by
        funext x; unfold backs; simp
      rw [this]; exact h4) (by
      have h6 : rot u ⊆ List.range s1.p.g.eSize := fun x hx => by
        rw [List.mem_range]
        have : s1.p.g.eSize = s0.g.eSize := by unfold eSize; rw [h4.arcCap]
        rw [this]; exact (hS.inv.links.arc _ _ hx).2
      have := ((hst.nodup u).subperm h6).length_le
      rwa [List.length_range] at this) (by
      have h7 := stk_room hS D'
      rw [List.nil_append] at hpush
      rw [← hpush, flat_length]; exact h7)
  refine ⟨s1.setP p', ?_, D', F', cur', fw', kid', ?_⟩
  · rw [initVisit_eq, hs1, Option.bind_some, getArc_eq hv, Option.bind_some, hf, h3]; rfl
  rw [hpush]
  refine h5.congrBk fun x => ?_
  unfold backs
  rw [List.nil_append]
  constructor
  · rintro (⟨y, y1, y2, y3, y4, y5⟩ | ⟨y1, y2, y3⟩)
    · exact ⟨y, List.mem_cons_of_mem _ y1, y2, List.mem_cons_of_mem _ y3, by rw [hi y y1, hi _ y3]; exact y4, by rw [hp y y1]; exact y5⟩
    · refine ⟨u, by simp, y1, y2, hmax _ y2 (hsim u x y1).1, y3⟩
  · rintro ⟨y, y1, y2, y3, y4, y5⟩
    by_cases hy : y = u
    · subst hy; exact .inr ⟨y2, y3, y5⟩
    · have y1 := (List.mem_cons.1 y1).resolve_left hy
      have y3' : hdOf s0 x ∈ order := by
        rcases List.mem_cons.1 y3 with q | q
        · rw [q, hiu, hi y y1] at y4
          have := (D.idxR y y1).2; omega
        · exact q
      refine .inl ⟨y, y1, y2, y3', by rw [hi y y1, hi _ y3'] at y4; exact y4, by rw [hp y y1] at y5; exact y5⟩

theorem Srch.skip {stack : List Nat} {Bk : Nat → Prop} {cur fw kid : Nat → List Nat}
    (h : Srch s0 rot r order stack Bk cur fw kid s) {e : Nat} (h1 : r.ty e = 0) (h2 : r.ty (twin e) = 0)
    (hroot : ∀ u ∈ order, ∀ f ∈ rot (r.par u), r.ty f = 14 → fwdTy r.ty e f = 14) :
    Srch s0 rot { r with ty := fwdTy r.ty e } order stack Bk cur fw kid s :=
  { N := h.N, M := h.M, arcCap := h.arcCap, holes := h.holes, holesCap := h.holesCap, stackCap := h.stackCap, flags := h.flags,
    stack := h.stack, nbr := h.nbr, idx := h.idx, vis := h.vis, par := h.par,
    links := h.links, inCur := h.inCur, cur0 := h.cur0,
    fwl := h.fwl, inFw := h.inFw, fws := h.fws, kl := h.kl, kN := h.kN, inKid := h.inKid, kids := h.kids,
    ty := by
      intro u f hf
      obtain ⟨t, t1, t2, t3, t4, t5, t6⟩ := h.ty u f hf
      refine ⟨t, t1, t2, ?_, ?_, t5, t6⟩
      · show t = 14 ↔ fwdTy r.ty e f = 14
        rw [t3]
        unfold fwdTy
        by_cases q1 : f = twin e
        · subst q1; rw [update_self, h2]; simp
        · rw [update_of_ne q1]
          by_cases q2 : f = e
          · subst q2; rw [update_self, h1]; simp
          · rw [update_of_ne q2]
      · show t = 6 ↔ fwdTy r.ty e f = 6
        rw [t4]
        unfold fwdTy
        by_cases q1 : f = twin e
        · subst q1; rw [update_self, h2]; simp
        · rw [update_of_ne q1]
          by_cases q2 : f = e
          · subst q2; rw [update_self, h1]; simp
          · rw [update_of_ne q2]
    dead := h.dead, bk := h.bk, la := h.la, la' := h.la',
    root := by
      intro u hu hp
      obtain ⟨f, f1, f2, f3, f4⟩ := h.root u hu hp
      exact ⟨f, f1, f2, hroot u hu f f1 f3, f4⟩
    rng := h.rng, pe := h.pe, roots := h.roots, noRoot := h.noRoot }

theorem visited_srch {stack : List Nat} {Bk : Nat → Prop} {cur fw kid : Nat → List Nat}
    (h : Srch s0 rot r order stack Bk cur fw kid s) {u : Nat} (h1 : 1 ≤ u) (h2 : u ≤ s0.g.N) :
    s.p.g.visited u = some (decide (u ∈ order)) := by
  have hv : u < s.p.g.vSize := by unfold vSize; rw [h.N]; omega
  simp only [visited, rdV, hv, if_true, Option.bind_eq_bind, Option.bind_some, Option.pure_def, Option.some.injEq]
  rw [decide_eq_decide]; exact h.vis _ h1 h2

theorem initLoop_spec (hS : Start s0 rot) (hsim : Simple s0 rot) (v : Nat) : ∀ (fuel : Nat) (r : Rec) (order : List Nat)
    (stk : List (Nat × Nat)) (s : EGraph), SrchAt s0 rot r order stk s → stk.length + weight s0.g.N rot order ≤ fuel →
    ∃ s' r' order', initLoop v fuel (order.length + 1) s = some (s', order'.length + 1) ∧ SrchAt s0 rot r' order' [] s' ∧
      (∀ u ∈ order, u ∈ order') ∧ (∀ u ∈ order', r'.par u = 0 → u ∈ order ∧ r.par u = 0) := by
  have hst := hS.static
  intro fuel
  induction fuel with
  | zero =>
    intro r order stk s h hm
    obtain ⟨cur, fw, kid, hs⟩ := h.srch
    have : stk = [] := List.length_eq_zero_iff.1 (by omega)
    subst this
    refine ⟨s, r, order, ?_, h, fun _ h => h, fun u hu hp => ⟨hu, hp⟩⟩
    unfold initLoop
    exact if_pos hs.stack
  | succ fuel ih =>
    intro r order stk s h hm
    obtain ⟨cur, fw, kid, hs⟩ := h.srch
    unfold initLoop
    rw [hs.stack]
    cases stk with
    | nil => exact ⟨s, r, order, rfl, h, fun _ h => h, fun u hu hp => ⟨hu, hp⟩⟩
    | cons q stk =>
      rw [flat_cons]
      simp only [Option.bind_eq_bind]
      have D := h.dinv
      obtain ⟨q1, q2, q3, q4, q5, q6⟩ := D.stkIn q (by simp)
      have hq1 := D.range _ q1
      have hp := hst.hdPrim q2
      have hs1 := hs.setStack (flat stk)
      have har := (hS.inv.links.arc _ _ q2).2
      unfold initBody
      rw [if_neg (by omega)]
      simp only [Option.bind_eq_bind]
      have hnb : (s.setG { s.p.g with stack := flat stk }).p.g.getNbr q.2 = some (hdOf s0 q.2) := by
        rw [getNbr_eq (by show _ < s.p.g.eSize; unfold eSize; rw [hs.arcCap]; exact har)]
        exact congrArg some (hs.nbr _)
      rw [hnb, Option.bind_some, visited_srch hs1 hp.1 hp.2, Option.bind_some]
      rw [List.length_cons] at hm
      by_cases hv : hdOf s0 q.2 ∈ order
      · simp only [hv, decide_true, Bool.not_true, Bool.false_eq_true, if_false, Option.pure_def, Option.bind_some]
        have hk : SrchAt s0 rot { r with ty := fwdTy r.ty q.2 } order stk (s.setG { s.p.g with stack := flat stk }) := by
          refine ⟨D.skip hst hv, h.frame.setTy hst q2, cur, fw, kid, hs1.skip q5 q6 ?_⟩
          intro u hu f hf hf14
          unfold fwdTy
          rw [update_of_ne (fun hh : f = twin q.2 => by rw [hh, q6] at hf14; omega),
            update_of_ne (fun hh : f = q.2 => by rw [hh, q5] at hf14; omega)]
          exact hf14
        exact ih { r with ty := fwdTy r.ty q.2 } order stk _ hk (by omega)
      · simp only [hv, decide_false, Bool.not_false, if_true]
        obtain ⟨s2, h2, h3⟩ := visit_spec hS hsim D h.frame hs1 (ty' := treeTy r.ty q.2) hp hv (.inr ⟨rfl, rfl, rfl⟩)
        rw [h2]
        simp only [Option.bind_some, Option.pure_def]
        have hw := weight_cons (rot := rot) hp.1 hp.2 hv
        have hpl := pushed_length rot (hdOf s0) order (hdOf s0 q.2)
        obtain ⟨s', r', order', e1, e2, e3, e4⟩ := ih _ (hdOf s0 q.2 :: order) _ _ h3 (by rw [List.length_append]; omega)
        refine ⟨s', r', order', e1, e2, fun u hu => e3 u (by simp [hu]), fun u hu h0 => ?_⟩
        obtain ⟨k1, k2⟩ := e4 u hu h0
        have k2 : update r.par (hdOf s0 q.2) q.1 u = 0 := k2
        rcases List.mem_cons.1 k1 with k1 | k1
        · rw [k1, update_self] at k2; omega
        · rw [update_of_ne (fun h' : u = hdOf s0 q.2 => hv (h' ▸ k1))] at k2
          exact ⟨k1, k2⟩

theorem initOuter_spec (hS : Start s0 rot) (hsim : Simple s0 rot) : ∀ (fuel v : Nat) (r : Rec) (order : List Nat)
    (s : EGraph), 1 ≤ v → SrchAt s0 rot r order [] s → (∀ u, 1 ≤ u → u < v → u ≤ s0.g.N → u ∈ order) →
    (∀ u ∈ order, r.par u = 0 → u < v) → s0.g.N + 1 ≤ fuel + v →
    ∃ s' r' order', initOuter fuel v (order.length + 1) s = some s' ∧ s0.g.N ≤ order'.length ∧ SrchAt s0 rot r' order' [] s' := by
  intro fuel
  induction fuel with
  | zero =>
    intro v r order s _ h h2 h3 h4
    obtain ⟨cur, fw, kid, hs⟩ := h.srch
    have hall : s0.g.N ≤ order.length := by
      have hsub : List.range' 1 s0.g.N ⊆ order := fun u hu => by
        rw [List.mem_range'_1] at hu; exact h2 u (by omega) (by omega) (by omega)
      have := ((List.nodup_range' ..).subperm hsub).length_le
      rwa [List.length_range'] at this
    refine ⟨s, r, order, ?_, hall, h⟩
    unfold initOuter
    rw [hs.N, if_neg (by omega)]
  | succ fuel ih =>
    intro v r order s hv h h2 h3 h4
    obtain ⟨cur, fw, kid, hs⟩ := h.srch
    unfold initOuter
    rw [hs.N]
    by_cases hd : order.length + 1 ≤ s0.g.N
    · rw [if_pos hd]
      have hvN : v ≤ s0.g.N := by
        by_contra hc
        have hsub : List.range' 1 s0.g.N ⊆ order := fun u hu => by
          rw [List.mem_range'_1] at hu; exact h2 u (by omega) (by omega) (by omega)
        have := ((List.nodup_range' ..).subperm hsub).length_le
        rw [List.length_range'] at this
        omega
      have hp : s.p.getParent v = some (r.par v) := by
        unfold PGraph.getParent
        rw [rdVI_ok (by rw [hs.N]; omega)]
        show some (s.p.VI v).parent = _
        rw [hs.par v hv hvN]
      rw [hp]
      simp only [Option.bind_eq_bind, Option.bind_some]
      by_cases hq : r.par v ≠ 0
      · rw [if_pos hq]
        refine ih (v + 1) r order s (by omega) h ?_ ?_ (by omega)
        · intro u k1 k2 k3
          by_cases hu : u = v
          · rw [hu]
            by_contra hc
            exact hq (h.dinv.parOut v hv hvN hc)
          · exact h2 u k1 (by omega) k3
        · intro u hu h0
          have := h3 u hu h0; omega
      · rw [if_neg hq]
        have hst0 : s.p.g.stack = [] := hs.stack
        have hnv : v ∉ order := fun hm => by have := h3 v hm (not_not.1 hq); omega
        have hcap := hS.cap'
        rw [push2_ok _ _ (by rw [hst0, hs.stackCap]; simp only [List.length_nil]; omega), Option.bind_some, hst0]
        have hs1 := hs.setStack []
        obtain ⟨s3, h6, h7⟩ := visit_spec hS hsim h.dinv h.frame (stk := []) hs1 (p := 0) (e := 0) (ty' := r.ty) ⟨hv, hvN⟩ hnv
          (.inl ⟨rfl, rfl, rfl, rfl, rfl⟩)
        obtain ⟨s1, r', order', e1, e2, e3, e4⟩ := initLoop_spec hS hsim v s0.g.eSize _ _ _ _ h7 (by
          rw [List.append_nil]
          have hw := weight_cons (rot := rot) hv hvN hnv
          have hpl := pushed_length rot (hdOf s0) order v
          have hwl := weight_le hS.inv order
          have := hS.inv.room
          unfold eSize
          omega)
        have hloop : initLoop v (({ s.p.g with stack := [0, 0] } : Graph).eSize + 1) (order.length + 1)
            (s.setG { s.p.g with stack := [0, 0] }) = some (s1, order'.length + 1) := by
          have hSz : ({ s.p.g with stack := [0, 0] } : Graph).eSize = s0.g.eSize := by unfold eSize; rw [← hs.arcCap]
          rw [hSz]
          unfold initLoop
          show ((s.setG { s.p.g with stack := [] }).initBody v 0 0 (order.length + 1)).bind
              (fun x => initLoop v s0.g.eSize x.2 x.1) = some (s1, order'.length + 1)
          unfold initBody
          rw [if_pos rfl]
          simp only [Option.bind_eq_bind, Option.bind_some]
          rw [visited_srch hs1 hv hvN, Option.bind_some]
          simp only [hnv, decide_false, Bool.not_false, if_true]
          rw [h6]
          exact e1
        rw [hloop]
        simp only [Option.bind_some]
        refine ih (v + 1) r' order' s1 (by omega) e2 ?_ ?_ (by omega)
        · intro u k1 k2 k3
          apply e3
          by_cases hu : u = v
          · simp [hu]
          · exact List.mem_cons_of_mem _ (h2 u k1 (by omega) k3)
        · intro u hu h0
          obtain ⟨k1, k2⟩ := e4 u hu h0
          rcases List.mem_cons.1 k1 with k1 | k1
          · omega
          · have k2 : update r.par v 0 u = 0 := k2
            rw [update_of_ne (fun h' : u = v => hnv (h' ▸ k1))] at k2
            have := h3 u k1 k2; omega
    · rw [if_neg hd]
      exact ⟨s, r, order, rfl, by omega, h⟩

end Verif.Embed
