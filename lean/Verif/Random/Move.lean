import Verif.Random.Model
import Verif.Graph.Exec

/-
`gp_MoveArcToLast` moves an arc to the end of its adjacency list: it does what detaching and attaching the arc would do.
-/
namespace Verif.Random
open Verif Verif.Graph

theorem next_last {g rot} (h : Links g rot) {v e : Nat} (he : e ∈ rot v) (b : Bool) :
    (g.E e).link b = 0 ↔ endIn (!b) (rot v) = e := by
  have h0 := h.zero_not_mem v
  have hn := h.nodup v
  rw [h.elink v b e he, nextIn_eq_zero_iff (nodup_dir hn) (by simpa using h0) (by simpa using he)]
  cases b
  · rfl
  · simp only [dir_true, Bool.not_true, endIn, dir_false, List.reverse_reverse]

theorem last_unchanged {L : List Nat} (hn : L.Nodup) {e : Nat} (he : e ∈ L) (h : endIn true L = e) : without e L ++ [e] = L := by
  unfold endIn at h
  rw [dir_true, List.headD_eq_head?_getD, List.head?_reverse] at h
  cases hl : L.getLast? with
  | none =>
    rw [List.getLast?_eq_none_iff] at hl
    rw [hl] at he
    simp at he
  | some x =>
    rw [hl] at h
    simp only [Option.getD_some] at h
    subst h
    obtain ⟨A, rfl⟩ := List.getLast?_eq_some_iff.1 hl
    rw [List.nodup_append] at hn
    have : x ∉ A := fun hx => hn.2.2 x hx x (by simp) rfl
    unfold without
    rw [List.filter_append]
    rw [show A.filter (· ≠ x) = A from by
      rw [List.filter_eq_self]; intro a ha; simp; rintro rfl; exact this ha]
    simp

/-- Moving is detaching and attaching again at the end. -/
theorem move_eq {g rot} (h : Inv g rot) {v e : Nat} (he : e ∈ rot v) (hl : endIn true (rot v) ≠ e) :
    moveArcToLast g v e = (g.detachArc e).bind fun g => g.attachArc v 0 true e := by
  have hv := h.links.vert _ _ he
  have har := h.links.arc _ _ he
  have hes : g.eSize % 2 = 0 := by have := h.even; unfold eSize; omega
  have htw : twin e < g.eSize := twin_lt har.2 hes
  have hown := h.owner v e he
  have h0 := h.links.zero_not_mem v
  have hlast : (g.V v).link true = endIn true (rot v) := h.links.vlink v true hv.2
  have hfirst : (g.V v).link false = endIn false (rot v) := h.links.vlink v false hv.2
  have hnx : (g.E e).link false ≠ 0 := fun hc => hl ((next_last h.links he false).1 hc)
  have hlm : endIn true (rot v) ∈ rot v := by
    apply endIn_mem
    intro hc
    rw [endIn_zero_iff h0] at hc
    rw [hc] at he
    simp at he
  have hnm : (g.E e).link false ∈ rot v := by
    have := nextIn_mem_or (dir false (rot v)) e
    rw [← h.links.elink v false e he] at this
    simpa [hnx] using this
  have hlb := (h.links.arc _ _ hlm).2
  have hnb := (h.links.arc _ _ hnm).2
  have hl0 : endIn true (rot v) ≠ 0 := by have := (h.links.arc _ _ hlm).1; omega
  unfold moveArcToLast
  rw [getArc_eq hv.2, hlast]
  simp only [Option.bind_eq_bind, Option.bind_some]
  rw [if_neg (Ne.symm hl), getArc_eq hv.2, hfirst]
  simp only [Option.bind_some]
  unfold unlink detachArc
  rw [getAdj_eq har.2, getAdj_eq har.2]
  simp only [Option.bind_eq_bind, Option.bind_some, if_pos hnx]
  by_cases hf : endIn false (rot v) = e
  · have hp : (g.E e).link true = 0 := (next_last h.links he true).2 hf
    rw [hf, hp]
    simp only [decide_true, if_true, ne_eq, not_true, if_false]
    rw [setAdj_eq hnb]
    simp only [Option.bind_some]
    rw [setArc_eq (by simpa using hv.2), getNbr_eq (by simpa using htw)]
    simp only [Option.bind_some, updE_E]
    have hnbr : (if twin e = (g.E e).link false then (g.E (twin e)).setLink true 0 else g.E (twin e)).nbr = v := by
      split <;> simp [hown]
    rw [hnbr, setArc_eq (by simpa using hv.2)]
    simp only [Option.bind_some]
    unfold attachArc
    simp only [ne_eq, not_true, if_false]
    rw [setAdj_eq (by simpa using har.2)]
    simp only [Option.bind_eq_bind, Option.bind_some]
    rw [setAdj_eq (by simpa using hlb)]
    simp only [Option.bind_some]
    rw [setArc_eq (by simpa using hv.2)]
    simp only [Option.bind_some]
    rw [setAdj_eq (by simpa using har.2)]
    rw [getArc_eq (by simpa using hv.2), setArc_eq (by simpa using hv.2)]
    simp only [Option.bind_some]
    rw [setAdj_eq (by simpa using har.2)]
    simp only [Option.bind_some]
    rw [setAdj_eq (by simpa using har.2)]
    simp only [Option.bind_some, updV_V, updE_V, if_true, VRec.link_setLink, Bool.true_eq_false, if_false, hlast]
    rw [if_pos hl0, setAdj_eq (by simpa using hlb)]
    congr 1
    refine SameBut.eq ?_ ?_ ?_
    · constructor <;> try rfl
      all_goals intro e'; simp only [updE_E, updV_E, updE_V, updV_V]; try ((repeat' split) <;> simp)
    · intro e' b
      simp only [updE_E, updV_E]
      cases b <;> (repeat' split) <;> simp_all
    · intro v' b
      simp only [updV_V, updE_V]
  · have hp : (g.E e).link true ≠ 0 := fun hc => hf ((next_last h.links he true).1 hc)
    have hpm : (g.E e).link true ∈ rot v := by
      have := nextIn_mem_or (dir true (rot v)) e
      rw [← h.links.elink v true e he] at this
      simpa [hp] using this
    have hpb := (h.links.arc _ _ hpm).2
    rw [if_neg (by simpa using Ne.symm hf)]
    simp only [ne_eq, hp, not_false_eq_true, if_true]
    rw [setAdj_eq hpb, setAdj_eq hnb]
    simp only [Option.bind_some]
    rw [setAdj_eq (by simpa using hnb), setAdj_eq (by simpa using hpb)]
    simp only [Option.bind_some]
    unfold attachArc
    simp only [ne_eq, not_true, if_false]
    rw [setAdj_eq (by simpa using har.2)]
    simp only [Option.bind_eq_bind, Option.bind_some]
    rw [setAdj_eq (by simpa using hlb)]
    simp only [Option.bind_some]
    rw [setArc_eq (by simpa using hv.2)]
    simp only [Option.bind_some]
    rw [setAdj_eq (by simpa using har.2)]
    rw [getArc_eq (by simpa using hv.2), setArc_eq (by simpa using hv.2)]
    simp only [Option.bind_some]
    rw [setAdj_eq (by simpa using har.2)]
    simp only [Option.bind_some]
    rw [setAdj_eq (by simpa using har.2)]
    simp only [Option.bind_some, updE_V, hlast]
    rw [if_pos hl0, setAdj_eq (by simpa using hlb)]
    congr 1
    refine SameBut.eq ?_ ?_ ?_
    · constructor <;> try rfl
      all_goals intro e'; simp only [updE_E, updV_E, updE_V, updV_V]; try ((repeat' split) <;> simp)
    · intro e' b
      simp only [updE_E, updV_E]
      cases b <;> (repeat' split) <;> simp_all
    · intro v' b
      simp only [updV_V, updE_V]

theorem move_spec {g rot} (h : Inv g rot) {v e : Nat} (he : e ∈ rot v) :
    ∃ g', moveArcToLast g v e = some g' ∧ Inv g' (Function.update rot v (without e (rot v) ++ [e])) ∧ SameBut g g' := by
  have hv := h.links.vert _ _ he
  have har := h.links.arc _ _ he
  have hes : g.eSize % 2 = 0 := by have := h.even; unfold eSize; omega
  by_cases hl : endIn true (rot v) = e
  · refine ⟨g, ?_, ?_, .refl g⟩
    · unfold moveArcToLast
      rw [getArc_eq hv.2, h.links.vlink v true hv.2, hl]
      simp
    · rw [last_unchanged (h.links.nodup v) he hl, Function.update_eq_self]
      exact h
  · rw [move_eq h he hl]
    obtain ⟨g1, e1, hL1, hs1, hz1, -⟩ := detachArc_spec h.links he (twin_lt har.2 hes) (h.owner v e he)
    rw [e1]
    simp only [Option.bind_some]
    have hfresh : ∀ w, e ∉ Function.update rot v (without e (rot v)) w := by
      intro w
      rw [Function.update_apply]
      split
      · simp
      · rename_i hw
        intro hc
        exact hw (h.links.disj _ _ _ hc he)
    obtain ⟨g2, e2, hL2, hs2, hz2⟩ := attachArc_nil hL1 true (v := v) (x := e) (by rw [hs1.vSize]; exact hv)
      (by rw [hs1.eSize]; exact har) hfresh
    refine ⟨g2, e2, ?_, hs1.trans hs2⟩
    rw [Function.update_self, Function.update_idem] at hL2
    have hs := hs1.trans hs2
    have hput : putEnd true e (without e (rot v)) = without e (rot v) ++ [e] := rfl
    rw [hput] at hL2
    have hm : ∀ w x, x ∈ Function.update rot v (without e (rot v) ++ [e]) w ↔ x ∈ rot w := by
      intro w x
      rw [Function.update_apply]
      split
      · rename_i hw
        subst hw
        simp only [List.mem_append, mem_without, List.mem_singleton]
        constructor
        · rintro (h | h)
          · exact h.1
          · rw [h]; exact he
        · intro h
          by_cases hx : x = e
          · exact .inr hx
          · exact .inl ⟨h, hx⟩
      · rfl
    constructor
    · exact hL2
    · intro w x hx; rw [hs.nbr]; exact h.owner w x ((hm w x).1 hx)
    · intro w x hx; rw [hs.nbr, hm]; exact h.twins w x ((hm w x).1 hx)
    · rw [hs.arcCap]; exact h.even
    · rw [hs.M, hs.holes, hs.arcCap]; exact h.room
    · intro x hx
      rw [hs.holes] at hx
      have := h.holeRange x hx
      rw [hs.inUse]
      exact ⟨this.1, this.2.1, fun w hw => this.2.2 w ((hm w x).1 hw)⟩
    · rw [hs.holes]; exact h.holeNodup
    · intro x h1 h2
      rw [hs.inUse] at h2
      rw [hs.holes]
      rcases h.cover x h1 h2 with ⟨w, hw⟩ | hh
      · exact .inl ⟨w, (hm w x).2 hw⟩
      · exact .inr hh
    · intro w x hx; rw [hs.inUse]; exact h.below w x ((hm w x).1 hx)
    · intro x hx
      have hx' : ∀ w, x ∉ rot w := fun w hw => hx w ((hm w x).2 hw)
      have hxe : x ≠ e := fun hc => hx' v (hc ▸ he)
      rw [hz2 x hxe, hz1 x hx', h.zero x hx']
      intro w
      rw [Function.update_apply]
      split
      · rename_i hw
        subst hw
        intro hc
        exact hx' _ (mem_without.1 hc).1
      · exact hx' w
    · rw [hs.arcCap, hs.holesCap]; exact h.holesCap

end Verif.Random
