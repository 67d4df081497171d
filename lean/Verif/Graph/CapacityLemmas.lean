import Verif.Graph.Capacity
import Verif.Graph.Store

/-
The edge store invariant survives growing, clearing and copying.
-/
namespace Verif
open Function
namespace Graph

/-- What growing changes: capacities and edge records beyond the old array only. -/
structure GrownFrom (g g' : Graph) : Prop where
  N : g'.N = g.N
  M : g'.M = g.M
  flags : g'.flags = g.flags
  V : g'.V = g.V
  E : ∀ e, e < g.eSize → g'.E e = g.E e
  arcCap : g.arcCap ≤ g'.arcCap
  stack : g.stack.length ≤ g.stackCap → g'.stack = g.stack
  stackCap : g.stackCap ≤ g'.stackCap

theorem GrownFrom.refl (g : Graph) : GrownFrom g g :=
  ⟨rfl, rfl, rfl, rfl, fun _ _ => rfl, le_rfl, fun _ => rfl, le_rfl⟩

theorem growStack_ok (g : Graph) (req : Nat) :
    ∃ s c, g.growStack req true = some { g with stack := s, stackCap := c } ∧
      g.stackCap ≤ c ∧ (g.stack.length ≤ g.stackCap → s = g.stack) := by
  unfold growStack
  by_cases h : g.stackCap < 2 * req
  · refine ⟨_, _, by rw [if_pos h, if_pos rfl], by omega, fun hs => ?_⟩
    unfold copyContent; rw [if_neg (by omega)]
  · exact ⟨_, _, by rw [if_neg h], le_rfl, fun _ => rfl⟩

/-- A growth request that needs reallocation, all allocations succeeding. -/
theorem ensureBase_ok {g : Graph} {req : Nat} (h : g.arcCap < req)
    (hh : g.holes.length ≤ req / 2) {a : Allocs} (ha : a.stack = true) (hb : a.holes = true)
    (hc : a.edges = true) :
    ∃ s c, g.ensureBase req a = ⟨{ g with
        stack := s, stackCap := c, holesCap := req / 2, arcCap := req
        E := fun e => if g.eSize ≤ e ∧ e < 2 + req then {} else g.E e }, false, .ok⟩ ∧
      g.stackCap ≤ c ∧ (g.stack.length ≤ g.stackCap → s = g.stack) := by
  obtain ⟨s, c, h1, h2, h3⟩ := growStack_ok g req
  refine ⟨s, c, ?_, h2, h3⟩
  unfold ensureBase
  rw [if_neg (by unfold eSize; omega), ha, h1]
  simp [hb, hc, copyContent, Nat.not_lt.2 hh]

/-- All outcomes of gp_EnsureArcCapacity with the allocations `a`. -/
theorem ensure_cases (g : Graph) (req : Int) (a : Allocs) (hh : g.holes.length ≤ g.arcCap / 2) :
    let k := g.ensureArcCapacity req a
    (req ≤ 0 ∨ req % 2 ≠ 0) ∧ k = ⟨g, false, .notok⟩ ∨
    (0 < req ∧ req % 2 = 0) ∧
      (req ≤ g.arcCap ∧ k = ⟨g, false, .ok⟩ ∨
       (g.arcCap : Int) < req ∧
        ((∃ s c, k = ⟨{ g with
            stack := s, stackCap := c, holesCap := req.toNat / 2, arcCap := req.toNat
            E := fun e => if g.eSize ≤ e ∧ e < 2 + req.toNat then {} else g.E e }, false, .ok⟩ ∧
          g.stackCap ≤ c ∧ (g.stack.length ≤ g.stackCap → s = g.stack)) ∨
         (∃ s c, k = ⟨{ g with stack := s, stackCap := c }, false, .notok⟩ ∧
          g.stackCap ≤ c ∧ (g.stack.length ≤ g.stackCap → s = g.stack) ∧
          (a.stack = false ∨ a.holes = false)) ∨
         (k.edgesNull = true ∧ k.res = .notok ∧ a.edges = false))) := by
  intro k
  by_cases h1 : req ≤ 0
  · left; exact ⟨.inl h1, by simp [k, ensureArcCapacity, h1]⟩
  by_cases h2 : req % 2 ≠ 0
  · left; exact ⟨.inr h2, by simp only [k, ensureArcCapacity, if_neg h1, if_pos h2]⟩
  right
  refine ⟨⟨by omega, by omega⟩, ?_⟩
  by_cases h3 : (g.arcCap : Int) ≥ req
  · left
    refine ⟨h3, ?_⟩
    simp only [k, ensureArcCapacity, if_neg h1, if_neg h2, if_pos h3]
  right
  refine ⟨by omega, ?_⟩
  have hk : k = g.ensureBase req.toNat a := by
    simp only [k, ensureArcCapacity, if_neg h1, if_neg h2, if_neg h3]
  rw [hk]
  have hlt : g.arcCap < req.toNat := by omega
  cases hs : a.stack with
  | false =>
    by_cases hc : g.stackCap < 2 * req.toNat
    · right; left
      refine ⟨g.stack, g.stackCap, ?_, le_rfl, fun _ => rfl, .inl rfl⟩
      unfold ensureBase
      rw [if_neg (by unfold eSize; omega), hs]
      simp [growStack, hc]
    · have hg : g.growStack req.toNat false = some g := by simp [growStack, hc]
      cases hb : a.holes with
      | false =>
        right; left
        refine ⟨g.stack, g.stackCap, ?_, le_rfl, fun _ => rfl, .inl rfl⟩
        unfold ensureBase
        rw [if_neg (by unfold eSize; omega), hs, hg]
        simp [hb]
      | true =>
        cases he : a.edges with
        | false =>
          right; right
          unfold ensureBase
          rw [if_neg (by unfold eSize; omega), hs, hg]
          simp [hb, he]
        | true =>
          left
          refine ⟨g.stack, g.stackCap, ?_, le_rfl, fun _ => rfl⟩
          unfold ensureBase
          rw [if_neg (by unfold eSize; omega), hs, hg]
          simp [hb, he, copyContent, show ¬ req.toNat / 2 < g.holes.length by omega]
  | true =>
    obtain ⟨s, c, h4, h5, h6⟩ := growStack_ok g req.toNat
    cases hb : a.holes with
    | false =>
      right; left
      refine ⟨s, c, ?_, h5, h6, .inr rfl⟩
      unfold ensureBase
      rw [if_neg (by unfold eSize; omega), hs, h4]
      simp [hb]
    | true =>
      cases he : a.edges with
      | false =>
        right; right
        unfold ensureBase
        rw [if_neg (by unfold eSize; omega), hs, h4]
        simp [hb, he]
      | true =>
        left
        obtain ⟨s, c, h7⟩ := ensureBase_ok hlt (by omega) hs hb he
        exact ⟨s, c, h7⟩

theorem Inv.holes_le {g rot} (h : Inv g rot) : g.holes.length ≤ g.arcCap / 2 := by
  have := h.room; omega

/-- Larger arrays, cleared beyond the old end, keep the invariant. -/
theorem Inv.grow {g rot} (h : Inv g rot) {req : Nat} (hr : g.arcCap ≤ req) (hev : req % 2 = 0)
    (s c) : Inv { g with
        stack := s, stackCap := c, holesCap := req / 2, arcCap := req
        E := fun e => if g.eSize ≤ e ∧ e < 2 + req then {} else g.E e } rot := by
  have hE : ∀ w e, e ∈ rot w → (if g.eSize ≤ e ∧ e < 2 + req then {} else g.E e) = g.E e := by
    intro w e he
    rw [if_neg]; have := (h.links.arc w e he).2; omega
  have ht : ∀ w e, e ∈ rot w → (if g.eSize ≤ twin e ∧ twin e < 2 + req then {} else g.E (twin e))
      = g.E (twin e) := fun w e he => hE _ _ (h.twins w e he)
  constructor
  · constructor
    · exact h.links.vlink
    · intro v b e he; simp only; rw [hE v e he]; exact h.links.elink v b e he
    · exact h.links.nodup
    · intro v e he; have := h.links.arc v e he; simp only [eSize] at this ⊢; omega
    · exact h.links.vert
    · exact h.links.disj
  · intro v e he; simp only; rw [ht v e he]; exact h.owner v e he
  · intro v e he; simp only; rw [hE v e he]; exact h.twins v e he
  · exact hev
  · have := h.room; simp only; omega
  · exact h.holeRange
  · exact h.holeNodup
  · exact h.cover
  · exact h.below
  · intro e he; simp only; split
    · rfl
    · exact h.zero e he
  · exact le_rfl

theorem Inv.restack {g rot} (h : Inv g rot) (s c) : Inv { g with stack := s, stackCap := c } rot := by
  constructor
  · exact h.links.congr rfl rfl (fun _ _ => rfl) (fun _ _ => rfl)
  · exact h.owner
  · exact h.twins
  · exact h.even
  · exact h.room
  · exact h.holeRange
  · exact h.holeNodup
  · exact h.cover
  · exact h.below
  · exact h.zero
  · exact h.holesCap

theorem Inv.ensure {g rot} (h : Inv g rot) (req : Int) (a : Allocs)
    (he : (g.ensureArcCapacity req a).edgesNull = false) :
    Inv (g.ensureArcCapacity req a).g rot := by
  rcases ensure_cases g req a h.holes_le with ⟨_, hk⟩ | ⟨⟨h0, h2⟩, ⟨_, hk⟩ | ⟨hlt, ⟨s, c, hk, _⟩ | ⟨s, c, hk, _⟩ | ⟨hk, _⟩⟩⟩
  · rw [hk]; exact h
  · rw [hk]; exact h
  · rw [hk]; exact h.grow (by omega) (by omega) s c
  · rw [hk]; exact h.restack s c
  · rw [hk] at he; exact absurd he (by simp)

theorem Inv.reinit {g rot} (h : Inv g rot) : Inv g.reinit (fun _ => []) := by
  constructor <;> try (intros; simp_all [Graph.reinit]; done)
  · constructor <;> try (intros; simp_all)
    · intro v b hv
      have : v < g.vSize := hv
      cases b <;> simp [Graph.reinit, VRec.link, endIn, this]
  · exact h.even
  · intro e h2 h3; simp [Graph.reinit, Graph.inUse] at h3; omega
  · intro e _
    simp only [Graph.reinit]
    split
    · rfl
    · next hh =>
      refine h.zero e fun v hv => ?_
      exact hh (h.links.arc v e hv).2
  · exact h.holesCap

/-- Vertex index and vertex flags are not part of the invariant. -/
theorem Inv.mark {g rot} (h : Inv g rot) (f k : Nat → Nat) :
    Inv { g with V := fun v => { g.V v with index := f v, flags := k v } } rot := by
  constructor
  · exact h.links.congr rfl rfl (fun _ _ => rfl) (fun v b => by cases b <;> rfl)
  · exact h.owner
  · exact h.twins
  · exact h.even
  · exact h.room
  · exact h.holeRange
  · exact h.holeNodup
  · exact h.cover
  · exact h.below
  · exact h.zero
  · exact h.holesCap

theorem Inv.zero_low {g rot} (h : Inv g rot) {e : Nat} (he : e < 2) : g.E e = {} :=
  h.zero e fun v hv => by have := (h.links.arc v e hv).1; omega
theorem Inv.rot_zero {g rot} (h : Inv g rot) : rot 0 = [] :=
  List.eq_nil_iff_forall_not_mem.2 fun e he => by have := (h.links.vert 0 e he).1; omega

/-- A successful request changes nothing but capacities and the new edge records. -/
theorem ensure_success {d : Graph} {rotd} (hd : Inv d rotd) {req : Nat} (h0 : 0 < req)
    (hev : req % 2 = 0) : ∃ k, d.ensureArcCapacity req {} = ⟨k, false, .ok⟩ ∧
      k.N = d.N ∧ k.arcCap = max d.arcCap req ∧ Inv k rotd ∧ k.V = d.V ∧
      (∀ e, k.E e = if d.eSize ≤ e ∧ e < k.eSize then {} else d.E e) := by
  have he : (d.ensureArcCapacity req {}).edgesNull = false := by
    rcases ensure_cases d req {} hd.holes_le with ⟨_, hk⟩ | ⟨_, ⟨_, hk⟩ | ⟨_, ⟨s, c, hk, _⟩ | ⟨s, c, hk, _, _, ha⟩ | ⟨_, _, ha⟩⟩⟩
    · rw [hk]
    · rw [hk]
    · rw [hk]
    · rw [hk]
    · exact absurd ha (by simp)
  have hI := hd.ensure req {} he
  rcases ensure_cases d req {} hd.holes_le with ⟨hh, hk⟩ | ⟨_, ⟨hle, hk⟩ | ⟨hlt, ⟨s, c, hk, _⟩ | ⟨s, c, hk, _, _, ha⟩ | ⟨_, _, ha⟩⟩⟩
  · omega
  · refine ⟨d, hk, rfl, by omega, by rw [hk] at hI; exact hI, rfl, fun e => ?_⟩
    rw [if_neg (by omega)]
  · simp only [Int.toNat_natCast] at hk
    refine ⟨_, hk, rfl, by simp only; omega, by rw [hk] at hI; exact hI, rfl, fun e => ?_⟩
    rfl
  · exact absurd ha (by simp)
  · exact absurd ha (by simp)

/-- gp_CopyGraph between initialised graphs of the same order succeeds; what the copy is. -/
theorem copyGraph_spec {d s : Graph} {rotd rots} (hd : Inv d rotd) (hs : Inv s rots)
    (hN : d.N = s.N) (hN0 : 0 < s.N) (hc : 0 < s.arcCap) :
    ∃ g, copyGraph d s = (g, .ok) ∧ g.N = s.N ∧ g.M = s.M ∧ g.flags = s.flags ∧
      g.stack = s.stack ∧ g.holes = s.holes ∧ g.arcCap = max d.arcCap s.arcCap ∧
      g.arcCap / 2 ≤ g.holesCap ∧ (s.stack.length ≤ s.stackCap → g.stack.length ≤ g.stackCap) ∧
      (∀ v, 1 ≤ v → v < s.vSize → g.V v = s.V v) ∧ (∀ b, (g.V 0).link b = 0) ∧
      (∀ e, e < s.eSize → g.E e = s.E e) ∧ (∀ e, s.eSize ≤ e → e < d.eSize → g.E e = d.E e) ∧
      (∀ e, s.eSize ≤ e → d.eSize ≤ e → g.E e = {}) := by
  obtain ⟨k, hk, hkN, hkA, hkI, hkV, hkE⟩ := ensure_success hd hc hs.even
  have hz : ∀ e, d.eSize ≤ e → d.E e = {} := fun e he =>
    hd.zero e fun v hv => by have := (hd.links.arc v e hv).2; omega
  refine ⟨k.copyInto s, ?_, rfl, rfl, rfl, rfl, rfl, ?_, ?_, ?_, ?_, ?_, ?_, ?_, ?_⟩
  · unfold copyGraph
    rw [if_neg (by omega)]
    simp only [hk, ne_eq, not_true_eq_false, if_false]
  · exact hkA
  · have h1 := hkI.holesCap
    have h2 := hs.holes_le
    simp only [copyInto, spCopy]
    split
    · next h =>
      exact absurd h (by rw [hkA] at h1; omega)
    · exact h1
  · intro hst
    simp only [copyInto, spCopy]
    split <;> omega
  · intro v h1 h2; simp [copyInto, h1, h2]
  · intro b
    have := hkI.links.vlink 0 b (by unfold vSize; omega)
    simp only [copyInto, show ¬ (1 ≤ 0 ∧ 0 < s.vSize) by omega, if_false]
    rw [this, hkI.rot_zero]; simp [endIn]
  · intro e he
    by_cases h2 : 2 ≤ e
    · simp [copyInto, h2, he]
    · simp only [copyInto, h2, false_and, if_false]
      rw [hkI.zero_low (by omega), hs.zero_low (by omega)]
  · intro e h1 h2
    simp only [copyInto, show ¬ (2 ≤ e ∧ e < s.eSize) by omega, if_false]
    rw [hkE e, if_neg (by omega)]
  · intro e h1 h2
    simp only [copyInto, show ¬ (2 ≤ e ∧ e < s.eSize) by omega, if_false]
    rw [hkE e]; split
    · rfl
    · exact hz e h2

/-- The copy is well formed if the destination had nothing beyond the source's edge array. -/
theorem Inv.copy {d s g : Graph} {rotd rots} (hd : Inv d rotd) (hs : Inv s rots)
    (hclean : ∀ e, s.eSize ≤ e → d.E e = {}) (hN : d.N = s.N) (hN0 : 0 < s.N) (hc : 0 < s.arcCap)
    (hg : copyGraph d s = (g, .ok)) : Inv g rots := by
  obtain ⟨g', h1, hgN, hgM, -, -, hgH, hgA, hgC, -, hV, hV0, hE, hEo, hEz⟩ :=
    copyGraph_spec hd hs hN hN0 hc
  rw [h1] at hg; cases hg
  have hin : g.inUse = s.inUse := by simp [inUse, hgM, hgH]
  have hle : s.eSize ≤ g.eSize := by unfold eSize; omega
  have hvs : g.vSize = s.vSize := by unfold vSize; omega
  have hd' := hd.even
  have hs' := hs.even
  have hEa : ∀ w e, e ∈ rots w → g.E e = s.E e := fun w e he => hE e (hs.links.arc w e he).2
  have hEt : ∀ w e, e ∈ rots w → g.E (twin e) = s.E (twin e) :=
    fun w e he => hEa _ _ (hs.twins w e he)
  constructor
  · constructor
    · intro v b hv
      by_cases hv0 : v = 0
      · subst hv0; rw [hV0, hs.rot_zero]; simp [endIn]
      · rw [hV v (by omega) (by omega)]; exact hs.links.vlink v b (by omega)
    · intro v b e he; rw [hEa v e he]; exact hs.links.elink v b e he
    · exact hs.links.nodup
    · intro v e he; have := hs.links.arc v e he; omega
    · intro v e he; rw [hvs]; exact hs.links.vert v e he
    · exact hs.links.disj
  · intro v e he; rw [hEt v e he]; exact hs.owner v e he
  · intro v e he; rw [hEa v e he]; exact hs.twins v e he
  · rw [hgA]; omega
  · rw [hgM, hgH, hgA]; have := hs.room; omega
  · rw [hgH, hin]; exact hs.holeRange
  · rw [hgH]; exact hs.holeNodup
  · rw [hgH, hin]; exact hs.cover
  · rw [hin]; exact hs.below
  · intro e he
    by_cases h1 : e < s.eSize
    · rw [hE e h1]; exact hs.zero e he
    · by_cases h2 : e < d.eSize
      · rw [hEo e (by omega) h2]; exact hclean e (by omega)
      · exact hEz e (by omega) (by omega)
  · exact hgC

theorem Inv.zero_high {g rot} (h : Inv g rot) {e : Nat} (he : g.eSize ≤ e) : g.E e = {} :=
  h.zero e fun v hv => by have := (h.links.arc v e hv).2; omega

/-- Growing leaves every edge record as it was. -/
theorem ensure_E {g rot} (h : Inv g rot) (req : Int) (a : Allocs)
    (he : (g.ensureArcCapacity req a).edgesNull = false) (e : Nat) :
    (g.ensureArcCapacity req a).g.E e = g.E e := by
  rcases ensure_cases g req a h.holes_le with ⟨_, hk⟩ | ⟨⟨h0, h2⟩, ⟨_, hk⟩ | ⟨hlt, ⟨s, c, hk, _⟩ | ⟨s, c, hk, _⟩ | ⟨hk, _⟩⟩⟩
  · rw [hk]
  · rw [hk]
  · rw [hk]; simp only; split
    · next hh => rw [h.zero_high hh.1]
    · rfl
  · rw [hk]
  · rw [hk] at he; exact absurd he (by simp)

theorem reinit_E {g rot} (h : Inv g rot) (e : Nat) : g.reinit.E e = {} := by
  simp only [Graph.reinit]; split
  · rfl
  · next hh => exact h.zero_high (by omega)

theorem copyGraph_E {d s g : Graph} {rotd rots} (hd : Inv d rotd) (hs : Inv s rots)
    (hclean : ∀ e, s.eSize ≤ e → d.E e = {}) (hN : d.N = s.N) (hN0 : 0 < s.N) (hc : 0 < s.arcCap)
    (hg : copyGraph d s = (g, .ok)) (e : Nat) : g.E e = s.E e := by
  obtain ⟨g', h1, -, -, -, -, -, -, -, -, -, -, hE, hEo, hEz⟩ := copyGraph_spec hd hs hN hN0 hc
  rw [h1] at hg; cases hg
  by_cases h1 : e < s.eSize
  · exact hE e h1
  · rw [hs.zero_high (by omega)]
    by_cases h2 : e < d.eSize
    · rw [hEo e (by omega) h2]; exact hclean e (by omega)
    · exact hEz e (by omega) (by omega)

end Graph
end Verif
