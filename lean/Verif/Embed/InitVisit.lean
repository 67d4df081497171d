import Verif.Embed.InitSearch

/-
The loop over the arcs of the vertex being visited.
-/
namespace Verif.Embed
open Verif Verif.Graph Verif.EGraph Verif.DFS Function

/-- No loops, no parallel edges. -/
def Simple (s0 : PGraph) (rot : Nat → List Nat) : Prop :=
  ∀ u, ∀ e ∈ rot u, hdOf s0 e ≠ u ∧ ∀ e' ∈ rot u, hdOf s0 e = hdOf s0 e' → e = e'

variable {s0 : PGraph} {rot : Nat → List Nat} {r : Rec} {order : List Nat} {stack : List Nat} {Bk : Nat → Prop}
  {cur fw kid : Nat → List Nat} {s : EGraph}

theorem Srch.congrBk (h : Srch s0 rot r order stack Bk cur fw kid s) {Bk' : Nat → Prop} (hb : ∀ e, Bk e ↔ Bk' e) :
    Srch s0 rot r order stack Bk' cur fw kid s := by
  have : Bk = Bk' := funext fun e => propext (hb e)
  exact this ▸ h

theorem Srch.setStack (h : Srch s0 rot r order stack Bk cur fw kid s) (st : List Nat) :
    Srch s0 rot r order st Bk cur fw kid (s.setG { s.p.g with stack := st }) :=
  { N := h.N, M := h.M, arcCap := h.arcCap, holes := h.holes, holesCap := h.holesCap, stackCap := h.stackCap, flags := h.flags,
    stack := rfl, nbr := h.nbr, idx := h.idx, vis := h.vis, par := h.par,
    links := h.links.congr rfl rfl (fun _ _ => rfl) (fun _ _ => rfl), inCur := h.inCur, cur0 := h.cur0,
    fwl := h.fwl, inFw := h.inFw, fws := h.fws, kl := h.kl, kN := h.kN, inKid := h.inKid, kids := h.kids, ty := h.ty,
    dead := h.dead, bk := h.bk, la := h.la, la' := h.la', root := h.root, rng := h.rng, pe := h.pe, roots := h.roots, noRoot := h.noRoot }

/-- Types of the arcs between visited vertices. -/
theorem tree_types (hs : Static s0.g.N rot (hdOf s0)) (hsim : Simple s0 rot) {stk} (D : DInv s0.g.N rot (hdOf s0) r order stk)
    {u e : Nat} (he : e ∈ rot u) (hu : u ∈ order) (hw : hdOf s0 e ∈ order) :
    (r.ty e = 14 ↔ r.par (hdOf s0 e) = u) ∧ (r.ty (twin e) = 6 ↔ r.par (hdOf s0 e) = u) := by
  have hne := (hsim u e he).1
  have hup := hs.prim _ _ he
  have hte := hs.twins u e he
  have how := hs.owner u e he
  have key : r.ty e = 14 ↔ r.ty (twin e) = 6 := by
    have z : ∀ q ∈ stk, q.2 = e ∨ q.2 = twin e → r.ty e = 0 ∧ r.ty (twin e) = 0 := by
      intro q hq hqe
      obtain ⟨_, _, _, _, q5, q6⟩ := D.stkIn q hq
      rcases hqe with hqe | hqe
      · rw [hqe] at q5 q6; exact ⟨q5, q6⟩
      · rw [hqe, twin_twin] at q6; rw [hqe] at q5; exact ⟨q6, q5⟩
    rcases D.typed u hu e he hw hne with h | h | h | h
    · have := z _ h (.inl rfl); rw [this.1, this.2]; simp
    · have := z _ h (.inr rfl); rw [this.1, this.2]; simp
    · rcases h with ⟨h1, h2, _⟩ | ⟨h1, h2, _⟩ <;> rw [h1, h2] <;> simp
    · rcases h with ⟨h1, h2, _⟩ | ⟨h1, h2, _⟩ <;> rw [twin_twin] at h2 <;> rw [h1, h2] <;> simp
  have k2 : r.ty e = 14 ↔ r.par (hdOf s0 e) = u := by
    constructor
    · exact D.child u e he
    · intro hp
      rcases D.parIn _ hw with h | ⟨_, _, e', h1, h2, h3⟩
      · omega
      · rw [hp] at h1
        have := (hsim u e he).2 e' h1 h2.symm
        rw [this]; exact h3
  exact ⟨k2, key.symm.trans k2⟩

theorem or_type {f t : Nat} (hf : f &&& 14 = 0) (ht : t = 0 ∨ t = 2 ∨ t = 6 ∨ t = 10 ∨ t = 14) : (f ||| t) &&& 14 = t := by
  rw [Nat.and_or_distrib_right, hf, Nat.zero_or]
  rcases ht with rfl | rfl | rfl | rfl | rfl <;> rfl

/-- The back arcs after the arcs `P` of `u`. -/
def backs (s0 : PGraph) (r : Rec) (order : List Nat) (u : Nat) (Bk : Nat → Prop) (P : List Nat) (e : Nat) : Prop :=
  Bk e ∨ (e ∈ P ∧ hdOf s0 e ∈ order ∧ r.par u ≠ hdOf s0 e)

/-- The arcs pushed. -/
def pushes (s0 : PGraph) (order : List Nat) (u : Nat) (P : List Nat) : List (Nat × Nat) :=
  ((P.filter fun e => !decide (hdOf s0 e ∈ order)).map fun e => (u, e)).reverse

theorem initArcs_spec (hS : Start s0 rot) (hsim : Simple s0 rot) {stk0 : List (Nat × Nat)}
    (D : DInv s0.g.N rot (hdOf s0) r order stk0) {u : Nat} (hu : u ∈ order)
    (hmax : ∀ x ∈ order, x ≠ u → r.idx x < r.idx u) {Bk0 : Nat → Prop} (hB0 : ∀ e ∈ rot u, ¬ Bk0 e)
    (hB1 : ∀ e, Bk0 e → hdOf s0 e ∈ order)
    (hB2 : ∀ e, Bk0 (twin e) → e ∉ rot u) {st : List Nat} :
    ∀ (T P : List Nat) (fuel : Nat) (cur fw : Nat → List Nat) (s : EGraph), rot u = P ++ T → cur u = rot u →
      Srch s0 rot r order (flat (pushes s0 order u P) ++ st) (backs s0 r order u Bk0 P) cur fw kid s →
      T.length ≤ fuel → (flat (pushes s0 order u (rot u)) ++ st).length ≤ s0.g.stackCap →
      ∃ p' cur' fw', initArcs u fuel (T.headD 0) s.p = some p' ∧ Srch s0 rot r order (flat (pushes s0 order u (P ++ T)) ++ st) (backs s0 r order u Bk0 (P ++ T)) cur' fw' kid (s.setP p') := by
  have hst := hS.static
  intro T
  induction T with
  | nil =>
    intro P fuel cur fw s hP hc h _ _
    rw [List.append_nil]
    exact ⟨s.p, cur, fw, by cases fuel <;> simp [initArcs], h⟩
  | cons e T ih =>
    intro P fuel cur fw s hP hc h hfu hro
    have hem : e ∈ rot u := by rw [hP]; simp
    have hea := hS.inv.links.arc u e hem
    have hup := hst.prim u e hem
    have hwp := hst.hdPrim hem
    have hne := (hsim u e hem).1
    have hnd := hst.nodup u
    cases fuel with
    | zero => simp at hfu
    | succ fuel =>
      have hfu : T.length ≤ fuel := by rw [List.length_cons] at hfu; omega
      have hstep : ∃ p1 cur' fw', initArc s.p u e = some p1 ∧ cur' u = rot u ∧
          Srch s0 rot r order (flat (pushes s0 order u (P ++ [e])) ++ st) (backs s0 r order u Bk0 (P ++ [e])) cur' fw' kid (s.setP p1) := by
        unfold initArc
        have heS : e < s.p.g.eSize := by
          have : s.p.g.eSize = s0.g.eSize := by unfold eSize; rw [h.arcCap]
          rw [this]; exact hea.2
        have hv : hdOf s0 e < s.p.g.vSize := by unfold vSize; rw [h.N]; omega
        have e1 : s.p.g.getNbr e = some (hdOf s0 e) := by rw [getNbr_eq heS, h.nbr]
        have e2 : s.p.g.visited (hdOf s0 e) = some (decide (hdOf s0 e ∈ order)) := by
          simp only [visited, rdV, hv, if_true, Option.bind_eq_bind, Option.bind_some, Option.pure_def, Option.some.injEq]
          rw [decide_eq_decide]; exact h.vis _ hwp.1 hwp.2
        obtain ⟨t, t1, t2, t3, t4, t5, t6⟩ := h.ty u e hem
        have e3 : s.p.g.getType e = some t := by
          rw [getType_eq heS, t1]; exact or_type (hS.types u e hem) t2
        rw [e1, Option.bind_eq_bind, Option.bind_some, e2, Option.bind_eq_bind, Option.bind_some, e3, Option.bind_eq_bind, Option.bind_some]
        by_cases hw : hdOf s0 e ∈ order
        · have hpu : pushes s0 order u (P ++ [e]) = pushes s0 order u P := by
            unfold pushes; rw [List.filter_append]; simp [hw]
          rw [hpu]
          simp only [hw, decide_true, Bool.not_true, Bool.false_eq_true, if_false]
          have hty := tree_types hst hsim D hem hu hw
          have hte := hst.twins u e hem
          have how : hdOf s0 (twin e) = u := hst.owner u e hem
          have hty' := tree_types hst hsim D hte hw (by rw [how]; exact hu)
          rw [how, twin_twin] at hty'
          by_cases hp : r.par u = hdOf s0 e
          · have : t = 6 := t4.2 (hty'.2.2 hp)
            rw [if_neg (by omega)]
            refine ⟨_, cur, fw, rfl, hc, h.congrBk fun f => ?_⟩
            unfold backs
            simp only [List.mem_append, List.mem_singleton]
            constructor
            · rintro (q | ⟨q1, q2⟩)
              · exact .inl q
              · exact .inr ⟨.inl q1, q2⟩
            · rintro (q | ⟨q1 | rfl, q2⟩)
              · exact .inl q
              · exact .inr ⟨q1, q2⟩
              · exact absurd hp q2.2
          · have h6 : r.ty e ≠ 6 := fun hh => hp (hty'.2.1 hh)
            have ht6 : t ≠ 6 := fun hh => h6 (t4.1 hh)
            rw [if_pos ht6]
            have hlt := hmax _ hw hne
            have hpw : r.par (hdOf s0 e) ≠ u := by
              intro hh
              rcases D.parIn _ hw with q | ⟨_, q, _⟩
              · omega
              · rw [hh] at q; omega
            have hnb : ¬ backs s0 r order u Bk0 P e := by
              rintro (q | ⟨q, _⟩)
              · exact hB0 e hem q
              · rw [hP] at hnd
                exact (List.nodup_append.1 hnd).2.2 e q e (by simp) rfl
            obtain ⟨p1, h1⟩ := h.back_total hS hem hnb
            obtain ⟨cur', fw', q1, q2⟩ := h.back hS hu hem hw hlt hp hnb ⟨fun hh => hpw (hty.1.1 hh), h6⟩
              ⟨fun hh => hp (hty'.1.1 hh), fun hh => hpw (hty.2.1 hh)⟩ (by
                intro f hf hfb
                have hfo : hdOf s0 f ∈ order := by
                  rcases hfb with q | ⟨q, _⟩
                  · obtain ⟨x, x1, x2, _⟩ := h.bk (twin f) (.inl q)
                    have : hdOf s0 (twin (twin f)) = x := hst.owner x _ x1
                    rw [twin_twin] at this; rw [this]; exact x2
                  · have : hdOf s0 (twin (twin f)) = u := hst.owner u _ (by rw [hP]; simp [q])
                    rw [twin_twin] at this; rw [this]; exact hu
                refine hmax _ hfo fun hh => ?_
                have htf := hst.twins _ f hf
                rw [hh] at htf
                have h4 : hdOf s0 (twin f) = hdOf s0 e := hst.owner _ f hf
                have h5 := (hsim u e hem).2 (twin f) htf h4.symm
                rw [← h5] at hfb
                exact hnb hfb) h1
            refine ⟨p1, cur', fw', h1, by rw [q1, hc], q2.congrBk fun f => ?_⟩
            unfold backs
            simp only [List.mem_append, List.mem_singleton]
            constructor
            · rintro ((q | ⟨q1, q2⟩) | rfl)
              · exact .inl q
              · exact .inr ⟨.inl q1, q2⟩
              · exact .inr ⟨.inr rfl, hw, hp⟩
            · rintro (q | ⟨q1 | rfl, q2⟩)
              · exact .inl (.inl q)
              · exact .inl (.inr ⟨q1, q2⟩)
              · exact .inr rfl
        · simp only [hw, decide_false, Bool.not_false, if_true]
          have hroom : s.p.g.stack.length + 2 ≤ s.p.g.stackCap := by
            rw [h.stack, h.stackCap]
            have h3 : pushes s0 order u (rot u) = pushes s0 order u T ++ (u, e) :: pushes s0 order u P := by
              rw [hP]; unfold pushes; rw [List.filter_append, List.filter_cons]; simp [hw]
            rw [h3, flat_append, flat_cons] at hro
            simp only [List.length_append, List.length_cons] at hro ⊢
            omega
          rw [push2_ok _ _ hroom, Option.bind_some]
          refine ⟨_, cur, fw, rfl, hc, ?_⟩
          have hpu : flat (pushes s0 order u (P ++ [e])) ++ st = e :: u :: s.p.g.stack := by
            rw [h.stack]
            unfold pushes; rw [List.filter_append]; simp [hw, flat]
          rw [hpu]
          refine Srch.congrBk (h.setStack _) fun f => ?_
          unfold backs
          simp only [List.mem_append, List.mem_singleton]
          constructor
          · rintro (q | ⟨q1, q2⟩)
            · exact .inl q
            · exact .inr ⟨.inl q1, q2⟩
          · rintro (q | ⟨q1 | rfl, q2⟩)
            · exact .inl q
            · exact .inr ⟨q1, q2⟩
            · exact absurd q2.1 hw
      obtain ⟨p1, cur', fw', h1, q1, q2⟩ := hstep
      have heS : e < p1.g.eSize := by
        have : p1.g.eSize = s0.g.eSize := by unfold eSize; rw [show p1.g.arcCap = _ from q2.arcCap]
        rw [this]; exact hea.2
      have hn : (p1.g.E e).link false = T.headD 0 := by
        have := q2.links.elink u false e (by rw [q1]; exact hem)
        have h3 : (p1.g.E e).link false = nextIn (dir false (cur' u)) e := this
        have hnP : e ∉ P := fun hh => by
          rw [hP] at hnd
          exact (List.nodup_append.1 hnd).2.2 e hh e (by simp) rfl
        rw [h3, q1, hP, dir_false, nextIn_append_right hnP, nextIn_cons_self]
      obtain ⟨p', c', f', k1, k2⟩ := ih (P ++ [e]) fuel cur' fw' (s.setP p1) (by rw [hP]; simp) q1 q2 hfu hro
      rw [List.append_assoc] at k2
      refine ⟨p', c', f', ?_, k2⟩
      unfold initArcs
      rw [List.headD_cons, if_neg (by omega), h1]
      simp only [Option.bind_eq_bind, Option.bind_some]
      rw [getAdj_eq heS, Option.bind_some, hn]
      exact k1

end Verif.Embed
