import Verif.Graph.History
import Verif.DFS.Refine
import Verif.DFS.Sort

/-
Graphs with vertex information that the public functions can produce: creation, edge operations between
primary vertices, capacity requests, reinitialisation, gp_CreateDFSTree and gp_SortVertices. The invariant
of such graphs.
-/
namespace Verif
open Verif.Graph Function

/-- The ends of a new edge are primary vertices. Virtual vertices N+1..2N are accepted by gp_AddEdge and
gp_InsertEdge (graphUtils.c 1630-1631, 1711-1712) but the functions of graphDFSUtils.c do not support them. -/
def Graph.Primary (g : Graph) : Op → Prop
  | .add u _ v _ => u ≤ g.N ∧ v ≤ g.N
  | .insert u _ _ v _ _ => u ≤ g.N ∧ v ≤ g.N
  | .delete _ _ => True
  | .direct _ _ => True

/-- Graphs reachable through the API. -/
inductive PReach : PGraph → Prop where
  | init (N arcCap : Nat) (hN : 0 < N) (hc : arcCap % 2 = 0) : PReach { g := Graph.init N arcCap }
  | edit {s : PGraph} {g' : Graph} {op : Op} {out : Out} : PReach s → s.g.Valid op → s.g.Primary op →
      s.g.step op = some (g', out) → PReach (s.setG g')
  | ensure {s : PGraph} (req : Int) (a : Allocs) : PReach s →
      (s.g.ensureArcCapacity req a).edgesNull = false → PReach (s.setG (s.g.ensureArcCapacity req a).g)
  | reinit {s : PGraph} : PReach s → PReach { g := s.g.reinit }
  | dfs {s s' : PGraph} {r : Res} : PReach s → s.createDFSTree = some (s', r) → PReach s'
  | sort {s s' : PGraph} {r : Res} : PReach s → s.sortVertices = some (s', r) → PReach s'

namespace DFS

/-- EDGE_TYPE_MASK together with EDGEFLAG_INVERTED determines the type. -/
theorem and14_of_30 (x : Nat) : x &&& 14 = (x &&& 30) &&& 14 := by rw [Nat.and_assoc]; rfl

theorem and30_mod (x : Nat) : x &&& 30 = (x % 32) &&& 30 := by
  have h := Nat.and_mod_two_pow (a := x) (b := 30) (n := 5)
  have h2 : x &&& 30 < 32 := Nat.lt_of_le_of_lt Nat.and_le_right (by decide)
  rw [show (2 : Nat) ^ 5 = 32 from rfl, Nat.mod_eq_of_lt h2] at h
  exact h

theorem clearDir_type (f : Nat) : clearDir f &&& 30 = f &&& 30 := by
  have h := Nat.and_mod_two_pow (a := f) (b := 96) (n := 5)
  have hle : f &&& 96 ≤ f := Nat.and_le_left
  have : (f &&& 96) % 32 = 0 := by
    rw [show (2 : Nat) ^ 5 = 32 from rfl] at h; rw [h]; simp
  rw [and30_mod (clearDir f), and30_mod f]
  unfold clearDir DIRMASK
  rw [show (f - (f &&& 96)) % 32 = f % 32 by omega]

theorem dir_type (f : Nat) : (f ||| INONLY) &&& 30 = f &&& 30 ∧ (f ||| OUTONLY) &&& 30 = f &&& 30 := by
  simp [INONLY, OUTONLY, Nat.and_or_distrib_right]

theorem wrE_same {g g' : Graph} {e : Nat} {r : ERec} (h : g.wrE e r = some g') : g' = { g with E := g'.E } := by
  unfold wrE at h
  split at h
  · cases h; rfl
  · cases h

theorem setDirection_same {g g' : Graph} {e d : Nat} (h : g.setDirection e d = some g') :
    g' = { g with E := g'.E } := by
  unfold setDirection at h
  simp only [Option.bind_eq_bind, Option.bind_eq_some_iff] at h
  obtain ⟨r, _, g1, h1, t, _, h2⟩ := h
  have h1 := wrE_same h1
  have h2 := wrE_same h2
  rw [h1] at h2
  exact h2

theorem setDirection_type {g g' : Graph} {rot} (h : Inv g rot) {v e d : Nat} (he : e ∈ rot v)
    (hs : g.setDirection e d = some g') (a : Nat) : (g'.E a).flags &&& 30 = (g.E a).flags &&& 30 := by
  obtain ⟨g2, h1, _, _, _, _, _, _, _, ho, h2, h3⟩ := setDirection_spec h he d
  rw [hs] at h1; cases h1
  by_cases h4 : a = e
  · subst h4; rw [h2]; split
    · exact (dir_type _).1
    · split
      · exact (dir_type _).2
      · exact clearDir_type _
  · by_cases h5 : a = twin e
    · subst h5; rw [h3]; split
      · exact (dir_type _).2
      · split
        · exact (dir_type _).1
        · exact clearDir_type _
    · rw [ho a h4 h5]

/-- What one step keeps. -/
structure StepFrame (g g' : Graph) (rot rot' : Nat → List Nat) : Prop where
  inv : Inv g' rot'
  N : g'.N = g.N
  arcCap : g'.arcCap = g.arcCap
  stackCap : g'.stackCap = g.stackCap
  flags : g'.flags = g.flags
  prim : ∀ u e, e ∈ rot' u → 1 ≤ u ∧ u ≤ g.N
  index : ∀ w, (g'.V w).index = (g.V w).index
  types : ∀ u e, e ∈ rot' u → (g'.E e).flags &&& 30 = (g.E e).flags &&& 30 ∧ (e ∈ rot u ∨ (g.E e).flags &&& 30 = 0)

theorem StepFrame.same {g : Graph} {rot} (h : Inv g rot) (hp : ∀ u e, e ∈ rot u → 1 ≤ u ∧ u ≤ g.N) :
    StepFrame g g rot rot :=
  ⟨h, rfl, rfl, rfl, rfl, hp, fun _ => rfl, fun _ _ he => ⟨rfl, .inl he⟩⟩

theorem StepFrame.put {g g' : Graph} {rot} (h : Inv g rot) (hp : ∀ u e, e ∈ rot u → 1 ≤ u ∧ u ≤ g.N)
    (hM : g.M < g.arcCap / 2) {u eu v ev : Nat} (bu bv : Bool) (hu : 1 ≤ u ∧ u ≤ g.N) (hv : 1 ≤ v ∧ v ≤ g.N)
    (heu : eu = 0 ∨ eu ∈ rot u) (hev : ev = 0 ∨ ev ∈ rot v) {r : Res}
    (hg : putEdge g.takeSlot.2 u eu bu v ev bv g.takeSlot.1 = some (g', r)) :
    StepFrame g g' rot (placeRot rot u eu bu v ev bv g.takeSlot.1) := by
  obtain ⟨g2, h1, hI, _, hN, hA, _, hF, _, hC, _, _, hEf, hVi, _⟩ := putEdge_spec h hM bu bv
    (u := u) (v := v) ⟨hu.1, by unfold vSize; omega⟩ ⟨hv.1, by unfold vSize; omega⟩ heu hev
  rw [hg] at h1; cases h1
  obtain ⟨_, _, _, hx, ht, _⟩ := takeSlot_spec h hM
  refine ⟨hI, hN, hA, hC, hF, ?_, hVi, ?_⟩
  · intro w e he
    rcases (mem_placeRot heu hev).1 he with ⟨_, rfl⟩ | ⟨_, rfl⟩ | he
    · exact hu
    · exact hv
    · exact hp w e he
  · intro w e he
    refine ⟨by rw [hEf], ?_⟩
    rcases (mem_placeRot heu hev).1 he with ⟨rfl, rfl⟩ | ⟨rfl, rfl⟩ | he
    · right; rw [h.zero _ ht]; rfl
    · right; rw [h.zero _ hx]; rfl
    · exact .inl he

/-- One step changes neither sizes nor vertex data, and new edges have no type. -/
theorem step_frame {g : Graph} {rot} (h : Inv g rot) (hp : ∀ u e, e ∈ rot u → 1 ≤ u ∧ u ≤ g.N) {op : Op}
    (hv : g.Valid op) (hpr : g.Primary op) {g' : Graph} {out : Out} (hs : g.step op = some (g', out)) :
    ∃ rot', StepFrame g g' rot rot' := by
  cases op with
  | add u ul v vl =>
    obtain ⟨⟨bu, hbu⟩, ⟨bv, hbv⟩⟩ := And.intro (linkOf_le hv.1) (linkOf_le hv.2)
    simp only [Graph.step, Option.bind_eq_bind, Option.bind_eq_some_iff] at hs
    obtain ⟨⟨g2, r⟩, hs, h2⟩ := hs
    cases h2
    by_cases hok : (g.vertexOk u && g.vertexOk v) = true
    · rw [Bool.and_eq_true] at hok
      by_cases hM : g.M < g.arcCap / 2
      · have hu := vertexOk_iff.1 hok.1
        have hv' := vertexOk_iff.1 hok.2
        rw [addEdge_spec hok.1 hok.2 hM hbu hbv] at hs
        have := hpr.1; have := hpr.2
        exact ⟨_, StepFrame.put h hp hM bu bv ⟨hu.1, by omega⟩ ⟨hv'.1, by omega⟩ (.inl rfl) (.inl rfl) hs⟩
      · simp [addEdge, hok, Nat.not_lt.1 hM] at hs
        obtain ⟨rfl, _⟩ := hs
        exact ⟨_, StepFrame.same h hp⟩
    · simp only [addEdge] at hs
      rw [Bool.not_eq_true] at hok
      simp [hok] at hs
      obtain ⟨rfl, _⟩ := hs
      exact ⟨_, StepFrame.same h hp⟩
  | insert u eu eul v ev evl =>
    simp only [Graph.step, Option.bind_eq_bind, Option.bind_eq_some_iff] at hs
    obtain ⟨⟨g2, r⟩, hs, h2⟩ := hs
    cases h2
    by_cases hrng : !(g.vertexOk u && g.vertexOk v) ∨ eu > (g.inUse : Int) - 1 ∨ (eu < 2 ∧ eu ≠ 0) ∨
      ev > (g.inUse : Int) - 1 ∨ (ev < 2 ∧ ev ≠ 0) ∨ eul < 0 ∨ eul > 1 ∨ evl < 0 ∨ evl > 1
    · simp only [insertEdge] at hs
      rw [if_pos hrng] at hs
      cases hs
      exact ⟨_, StepFrame.same h hp⟩
    · by_cases hM : g.M < g.arcCap / 2
      · simp only [not_or] at hrng
        obtain ⟨hok, _, _, _, _, h1, h2, h3, h4⟩ := hrng
        simp only [Bool.not_eq_true', Bool.not_eq_false, Bool.and_eq_true] at hok
        have hu := vertexOk_iff.1 hok.1
        have hv' := vertexOk_iff.1 hok.2
        have hb : u.toNat ≤ g.N ∧ v.toNat ≤ g.N := by have := hpr.1; have := hpr.2; omega
        obtain ⟨heu, hev⟩ := hv
        obtain ⟨au, rfl, hau⟩ : ∃ a : Nat, eu = a ∧ (a = 0 ∨ a ∈ rot u.toNat) := by
          rcases heu with rfl | ⟨a, rfl, ha⟩
          · exact ⟨0, rfl, .inl rfl⟩
          · exact ⟨a, rfl, .inr (h.arcAt.1 ha)⟩
        obtain ⟨av, rfl, hav⟩ : ∃ a : Nat, ev = a ∧ (a = 0 ∨ a ∈ rot v.toNat) := by
          rcases hev with rfl | ⟨a, rfl, ha⟩
          · exact ⟨0, rfl, .inl rfl⟩
          · exact ⟨a, rfl, .inr (h.arcAt.1 ha)⟩
        have hl : ∀ l : Int, ¬ l < 0 → ¬ l > 1 → ∃ b : Bool, l = if b then 1 else 0 := by
          intro l a b
          rcases (show l = 0 ∨ l = 1 by omega) with h | h
          · exact ⟨false, by simpa using h⟩
          · exact ⟨true, by simpa using h⟩
        obtain ⟨bu, rfl⟩ := hl eul h1 h2
        obtain ⟨bv, rfl⟩ := hl evl h3 h4
        rw [insertEdge_spec h hok.1 hok.2 hM hau hav] at hs
        exact ⟨_, StepFrame.put h hp hM bu bv ⟨hu.1, hb.1⟩ ⟨hv'.1, hb.2⟩ hau hav hs⟩
      · simp only [insertEdge] at hs
        rw [if_neg hrng, if_pos (Nat.not_lt.1 hM)] at hs
        cases hs
        exact ⟨_, StepFrame.same h hp⟩
  | delete e nl =>
    obtain ⟨b, hb⟩ := linkOf_le hv.1
    obtain ⟨v, hv'⟩ := hv.2
    obtain ⟨g2, hg', hI, _, hN, hA, hF, _, hC, _, _, hE, hVi, _⟩ := deleteEdge_spec h (h.arcAt.1 hv') nl b hb
    simp only [Graph.step, hg', Option.bind_eq_bind, Option.bind_some] at hs
    cases hs
    refine ⟨_, hI, hN, hA, hC, hF, fun u e he => hp u e (mem_removeRot.1 he).1, hVi, fun u e he => ?_⟩
    have := mem_removeRot.1 he
    exact ⟨by rw [(hE e this.2.1 this.2.2).2], .inl this.1⟩
  | direct e d =>
    obtain ⟨v, hv'⟩ := hv
    obtain ⟨g2, hg', hI, -⟩ := setDirection_spec h (h.arcAt.1 hv') d
    simp only [Graph.step, hg', Option.bind_eq_bind, Option.bind_some] at hs
    cases hs
    have hs := setDirection_same hg'
    refine ⟨rot, hI, by rw [hs], by rw [hs], by rw [hs], by rw [hs], hp, fun w => by rw [hs], fun u a ha => ?_⟩
    exact ⟨setDirection_type h (h.arcAt.1 hv') hg' a, .inl ha⟩

/-- The invariant of reachable graphs. -/
structure PInv (s : PGraph) (rot : Nat → List Nat) : Prop where
  inv : Inv s.g rot
  prim : ∀ u e, e ∈ rot u → 1 ≤ u ∧ u ≤ s.g.N
  cap : 2 * s.g.arcCap ≤ s.g.stackCap
  cap' : 6 * s.g.N ≤ s.g.stackCap
  fresh : s.g.dfsNumbered = false → (∀ u, ∀ e ∈ rot u, (s.g.E e).flags &&& 14 = 0) ∧
    ∀ u, 1 ≤ u → u ≤ s.g.N → (s.VI u).parent = 0
  numbered : s.g.dfsNumbered = true → (∃ inv, Numbering s.g inv) ∧
    ∀ u, 1 ≤ u → u ≤ s.g.N → (s.VI u).parent ≤ s.g.N
  unsorted : s.g.dfsNumbered = false → s.g.sortedByDfi = false

theorem PInv.start {s rot} (h : PInv s rot) (hf : s.g.dfsNumbered = false) : Start s rot :=
  ⟨h.inv, h.prim, (h.fresh hf).1, (h.fresh hf).2, h.cap, h.cap'⟩

theorem PInv.init (N arcCap : Nat) (hc : arcCap % 2 = 0) : PInv { g := Graph.init N arcCap } (fun _ => []) := by
  refine ⟨Inv.init N arcCap hc, by simp, ?_, ?_, fun _ => ⟨by simp, fun _ _ _ => rfl⟩, ?_, fun _ => by simp [sortedByDfi, Graph.init]⟩
  · simp only [Graph.init]; omega
  · simp only [Graph.init]; omega
  · intro h; simp [dfsNumbered, Graph.init] at h

theorem PInv.reinit {s rot} (h : PInv s rot) : PInv { g := s.g.reinit } (fun _ => []) := by
  refine ⟨h.inv.reinit, by simp, h.cap, h.cap', fun _ => ⟨by simp, fun _ _ _ => rfl⟩, ?_, fun _ => by simp [sortedByDfi, Graph.reinit]⟩
  intro h; simp [dfsNumbered, Graph.reinit] at h

theorem dfsNumbered_congr {g g' : Graph} (h : g'.flags = g.flags) : g'.dfsNumbered = g.dfsNumbered := by
  unfold dfsNumbered; rw [h]

theorem sortedByDfi_congr {g g' : Graph} (h : g'.flags = g.flags) : g'.sortedByDfi = g.sortedByDfi := by
  unfold sortedByDfi; rw [h]

theorem PInv.edit {s rot} (h : PInv s rot) {g' rot'} (f : StepFrame s.g g' rot rot') : PInv (s.setG g') rot' := by
  refine ⟨f.inv, ?_, ?_, ?_, ?_, ?_, fun hn => (sortedByDfi_congr f.flags).trans
    (h.unsorted ((dfsNumbered_congr f.flags).symm.trans hn))⟩
  · show ∀ u e, e ∈ rot' u → 1 ≤ u ∧ u ≤ g'.N
    rw [f.N]; exact f.prim
  · show 2 * g'.arcCap ≤ g'.stackCap
    rw [f.arcCap, f.stackCap]; exact h.cap
  · show 6 * g'.N ≤ g'.stackCap
    rw [f.N, f.stackCap]; exact h.cap'
  · show g'.dfsNumbered = false → (∀ u, ∀ e ∈ rot' u, (g'.E e).flags &&& 14 = 0) ∧
      ∀ u, 1 ≤ u → u ≤ g'.N → (s.VI u).parent = 0
    rw [dfsNumbered_congr f.flags, f.N]
    intro hf
    refine ⟨fun u e he => ?_, (h.fresh hf).2⟩
    rw [and14_of_30, (f.types u e he).1]
    rcases (f.types u e he).2 with h1 | h1
    · rw [← and14_of_30]; exact (h.fresh hf).1 u e h1
    · rw [h1]; rfl
  · show g'.dfsNumbered = true → (∃ inv, Numbering g' inv) ∧ ∀ u, 1 ≤ u → u ≤ g'.N → (s.VI u).parent ≤ g'.N
    rw [dfsNumbered_congr f.flags, f.N]
    intro hf
    obtain ⟨⟨inv, hn⟩, h2⟩ := h.numbered hf
    refine ⟨⟨inv, ?_, ?_⟩, h2⟩
    · intro u; rw [f.index, f.N]; exact hn.out u
    · intro u; rw [f.index, f.N]; exact hn.back u

/-- A capacity request: either only the stack changes, or the edge array grows; in both cases the stack is large
enough. -/
theorem ensure_shape (g : Graph) (req : Int) (a : Allocs) (hc : 2 * g.arcCap ≤ g.stackCap) (hc' : 6 * g.N ≤ g.stackCap)
    (he : (g.ensureArcCapacity req a).edgesNull = false) :
    let g' := (g.ensureArcCapacity req a).g
    g'.N = g.N ∧ g'.V = g.V ∧ g'.flags = g.flags ∧ 2 * g'.arcCap ≤ g'.stackCap ∧ 6 * g'.N ≤ g'.stackCap ∧
      ∀ e, e < g.eSize → g'.E e = g.E e := by
  intro g'
  have hst : ∀ req b g1, g.growStack req b = some g1 → g1.N = g.N ∧ g1.V = g.V ∧ g1.E = g.E ∧ g1.flags = g.flags ∧
      g1.arcCap = g.arcCap ∧ 2 * req ≤ g1.stackCap ∧ 2 * g.arcCap ≤ g1.stackCap ∧ 6 * g.N ≤ g1.stackCap := by
    intro req b g1 h
    unfold growStack at h
    split at h
    · split at h
      · cases h; refine ⟨rfl, rfl, rfl, rfl, rfl, ?_, ?_, ?_⟩ <;> simp only <;> omega
      · cases h
    · cases h; refine ⟨rfl, rfl, rfl, rfl, rfl, by omega, hc, hc'⟩
  have same : g.N = g.N ∧ g.V = g.V ∧ g.flags = g.flags ∧ 2 * g.arcCap ≤ g.stackCap ∧ 6 * g.N ≤ g.stackCap ∧
      ∀ e, e < g.eSize → g.E e = g.E e := ⟨rfl, rfl, rfl, hc, hc', fun _ _ => rfl⟩
  revert he
  simp only [g', ensureArcCapacity]
  split
  · intro _; exact same
  split
  · intro _; exact same
  split
  · intro _; exact same
  unfold ensureBase
  split
  · intro _; exact same
  · split
    · intro _; exact same
    · next g1 hg1 =>
      obtain ⟨h1, h2, h3, h4, h5, h6, h7, h8⟩ := hst _ _ _ hg1
      split
      · intro _
        refine ⟨h1, h2, h4, ?_, ?_, fun e _ => by rw [h3]⟩
        · rw [h5]; exact h7
        · rw [h1]; exact h8
      · simp only
        split
        · intro h; cases h
        · intro _
          refine ⟨h1, h2, h4, h6, ?_, fun e hlt => ?_⟩
          · show 6 * g1.N ≤ g1.stackCap
            rw [h1]; exact h8
          · simp only
            rw [if_neg (by omega), h3]

theorem PInv.ensure {s rot} (h : PInv s rot) (req : Int) (a : Allocs)
    (he : (s.g.ensureArcCapacity req a).edgesNull = false) : PInv (s.setG (s.g.ensureArcCapacity req a).g) rot := by
  obtain ⟨hN, hV, hF, hC, hC', hE⟩ := ensure_shape s.g req a h.cap h.cap' he
  have hI := h.inv.ensure req a he
  generalize (s.g.ensureArcCapacity req a).g = g' at *
  refine ⟨hI, ?_, hC, hC', ?_, ?_, fun hn => (sortedByDfi_congr hF).trans
    (h.unsorted ((dfsNumbered_congr hF).symm.trans hn))⟩
  · show ∀ u e, e ∈ rot u → 1 ≤ u ∧ u ≤ g'.N
    rw [hN]; exact h.prim
  · show g'.dfsNumbered = false → (∀ u, ∀ e ∈ rot u, (g'.E e).flags &&& 14 = 0) ∧
      ∀ u, 1 ≤ u → u ≤ g'.N → (s.VI u).parent = 0
    rw [dfsNumbered_congr hF, hN]
    intro hf
    refine ⟨fun u e hm => ?_, (h.fresh hf).2⟩
    rw [hE e (h.inv.links.arc u e hm).2]
    exact (h.fresh hf).1 u e hm
  · show g'.dfsNumbered = true → (∃ inv, Numbering g' inv) ∧ ∀ u, 1 ≤ u → u ≤ g'.N → (s.VI u).parent ≤ g'.N
    rw [dfsNumbered_congr hF, hN]
    intro hf
    obtain ⟨⟨inv, hn⟩, h2⟩ := h.numbered hf
    refine ⟨⟨inv, ?_, ?_⟩, h2⟩
    · intro u; rw [hV, hN]; exact hn.out u
    · intro u; rw [hV, hN]; exact hn.back u

/-- An injective numbering of 1..N by 1..N has an inverse. -/
theorem exists_numbering {g : Graph} (h1 : ∀ u, 1 ≤ u → u ≤ g.N → 1 ≤ (g.V u).index ∧ (g.V u).index ≤ g.N)
    (h2 : ∀ u w, 1 ≤ u → u ≤ g.N → 1 ≤ w → w ≤ g.N → (g.V u).index = (g.V w).index → u = w) :
    ∃ inv, Numbering g inv := by
  have hsurj : ∀ d, 1 ≤ d → d ≤ g.N → ∃ u, 1 ≤ u ∧ u ≤ g.N ∧ (g.V u).index = d := by
    intro d hd1 hd2
    have hl : ((List.range' 1 g.N).map fun u => (g.V u).index).Nodup := by
      refine List.Nodup.map_on ?_ (List.nodup_range' (n := g.N))
      intro x hx y hy
      rw [List.mem_range'_1] at hx hy
      exact h2 x y hx.1 (by omega) hy.1 (by omega)
    have hsub : ((List.range' 1 g.N).map fun u => (g.V u).index) ⊆ List.range' 1 g.N := by
      intro x hx
      obtain ⟨u, hu, rfl⟩ := List.mem_map.1 hx
      rw [List.mem_range'_1] at hu ⊢
      have := h1 u hu.1 (by omega)
      omega
    have hp := (hl.subperm hsub).perm_of_length_le (by simp)
    have : d ∈ (List.range' 1 g.N).map fun u => (g.V u).index := hp.mem_iff.2 (by rw [List.mem_range'_1]; omega)
    obtain ⟨u, hu, rfl⟩ := List.mem_map.1 this
    rw [List.mem_range'_1] at hu
    exact ⟨u, hu.1, by omega, rfl⟩
  refine ⟨fun d => if h : 1 ≤ d ∧ d ≤ g.N then (hsurj d h.1 h.2).choose else 0, ?_, ?_⟩
  · intro u hu1 hu2
    have hd := h1 u hu1 hu2
    refine ⟨hd.1, hd.2, ?_⟩
    rw [dif_pos hd]
    have := (hsurj _ hd.1 hd.2).choose_spec
    exact h2 _ _ this.1 this.2.1 hu1 hu2 this.2.2
  · intro d hd1 hd2
    rw [dif_pos ⟨hd1, hd2⟩]
    exact (hsurj _ hd1 hd2).choose_spec

/-- The arcs of each vertex after sorting. -/
def sortRot (N : Nat) (inv : Nat → Nat) (rot : Nat → List Nat) (d : Nat) : List Nat :=
  if 1 ≤ d ∧ d ≤ N then rot (inv d) else []

theorem mem_sortRot {s : PGraph} {rot inv} (hn : Numbering s.g inv) (hp : ∀ u e, e ∈ rot u → 1 ≤ u ∧ u ≤ s.g.N)
    {d e : Nat} : e ∈ sortRot s.g.N inv rot d ↔ ∃ u, e ∈ rot u ∧ d = (s.g.V u).index := by
  unfold sortRot
  constructor
  · intro h
    split at h
    · next hd => exact ⟨inv d, h, (hn.back d hd.1 hd.2).2.2.symm⟩
    · cases h
  · rintro ⟨u, hu, rfl⟩
    have hr := hp u e hu
    have := hn.out u hr.1 hr.2
    rw [if_pos ⟨this.1, this.2.1⟩, this.2.2]
    exact hu

theorem PInv.sorted {s rot inv} (h : PInv s rot) (hn : Numbering s.g inv)
    (hp : ∀ u, 1 ≤ u → u ≤ s.g.N → (s.VI u).parent ≤ s.g.N) (hf : s.g.dfsNumbered = true) :
    PInv (sortedOf s inv) (sortRot s.g.N inv rot) := by
  have hmem := fun d e => mem_sortRot (d := d) (e := e) hn h.prim
  have hnbr : ∀ u e, e ∈ rot u → (relabE s.g e).nbr = (s.g.V (s.g.E e).nbr).index := by
    intro u e he
    have := h.prim _ _ (h.inv.twins u e he)
    simp only [relabE, relab]
    rw [if_neg (by omega)]
  have hlink : ∀ e b, (relabE s.g e).link b = (s.g.E e).link b := by intro e b; cases b <;> rfl
  have hfl : ((sortedOf s inv).g).dfsNumbered = s.g.dfsNumbered := by
    simp only [dfsNumbered, sortedOf]
    rw [decide_eq_decide, Nat.and_xor_distrib_right]
    simp
  refine ⟨?_, ?_, h.cap, h.cap', ?_, ?_, fun hn => by rw [hfl, hf] at hn; cases hn⟩
  · constructor
    · constructor
      · intro v b hv
        show VRec.link (if 1 ≤ v ∧ v ≤ s.g.N then _ else s.g.V v) b = _
        unfold sortRot
        split
        · next hd =>
          have hi := hn.back v hd.1 hd.2
          have := h.inv.links.vlink (inv v) b (by unfold vSize; omega)
          cases b <;> exact this
        · next hd =>
          have := h.inv.links.vlink v b hv
          have hr : rot v = [] := by
            rw [List.eq_nil_iff_forall_not_mem]; intro e he; exact hd (h.prim v e he)
          rw [hr] at this; exact this
      · intro v b e he
        show (relabE s.g e).link b = _
        rw [hlink]
        unfold sortRot at he ⊢
        split at he
        · next hd => rw [if_pos hd]; exact h.inv.links.elink (inv v) b e he
        · cases he
      · intro v; unfold sortRot; split
        · exact h.inv.links.nodup _
        · exact List.nodup_nil
      · intro v e he
        obtain ⟨u, hu, _⟩ := (hmem v e).1 he
        exact h.inv.links.arc u e hu
      · intro v e he
        obtain ⟨u, hu, rfl⟩ := (hmem v e).1 he
        have := hn.out u (h.prim u e hu).1 (h.prim u e hu).2
        show 1 ≤ _ ∧ _ < 1 + s.g.N + s.g.N
        omega
      · intro v w e he hw
        obtain ⟨u, hu, rfl⟩ := (hmem v e).1 he
        obtain ⟨u', hu', rfl⟩ := (hmem w e).1 hw
        rw [h.inv.links.disj u u' e hu hu']
    · intro v e he
      obtain ⟨u, hu, rfl⟩ := (hmem v e).1 he
      show (relabE s.g (twin e)).nbr = _
      have ht := h.inv.twins u e hu
      rw [hnbr _ _ ht, h.inv.owner u e hu]
    · intro v e he
      obtain ⟨u, hu, rfl⟩ := (hmem v e).1 he
      show twin e ∈ sortRot s.g.N inv rot (relabE s.g e).nbr
      rw [hnbr u e hu]
      exact (hmem _ _).2 ⟨_, h.inv.twins u e hu, rfl⟩
    · exact h.inv.even
    · exact h.inv.room
    · intro x hx
      have := h.inv.holeRange x hx
      refine ⟨this.1, this.2.1, fun v hv => ?_⟩
      obtain ⟨u, hu, _⟩ := (hmem v x).1 hv
      exact this.2.2 u hu
    · exact h.inv.holeNodup
    · intro e h1 h2
      rcases h.inv.cover e h1 h2 with ⟨v, hv⟩ | hh
      · exact .inl ⟨_, (hmem _ e).2 ⟨v, hv, rfl⟩⟩
      · exact .inr hh
    · intro v e he
      obtain ⟨u, hu, _⟩ := (hmem v e).1 he
      exact h.inv.below u e hu
    · intro e he
      show relabE s.g e = {}
      have hz := h.inv.zero e fun v hv => he _ ((hmem _ e).2 ⟨v, hv, rfl⟩)
      rw [relab_zero_rec (by rw [hz]), hz]
    · exact h.inv.holesCap
  · intro v e he
    obtain ⟨u, hu, rfl⟩ := (hmem v e).1 he
    have := hn.out u (h.prim u e hu).1 (h.prim u e hu).2
    exact ⟨this.1, this.2.1⟩
  · rw [hfl, hf]; intro h; cases h
  · intro _
    refine ⟨⟨fun u => (s.g.V u).index, ?_, ?_⟩, ?_⟩
    · intro d h1 h2
      have h2 : d ≤ s.g.N := h2
      have hi := hn.back d h1 h2
      show 1 ≤ VRec.index (if 1 ≤ d ∧ d ≤ s.g.N then _ else s.g.V d) ∧ VRec.index (if 1 ≤ d ∧ d ≤ s.g.N then _ else s.g.V d) ≤ s.g.N ∧
        (s.g.V (VRec.index (if 1 ≤ d ∧ d ≤ s.g.N then _ else s.g.V d))).index = d
      rw [if_pos ⟨h1, h2⟩]
      exact hi
    · intro u h1 h2
      have h2 : u ≤ s.g.N := h2
      have ho := hn.out u h1 h2
      refine ⟨ho.1, ho.2.1, ?_⟩
      show VRec.index (if 1 ≤ (s.g.V u).index ∧ (s.g.V u).index ≤ s.g.N then _ else s.g.V _) = u
      rw [if_pos ⟨ho.1, ho.2.1⟩]
      exact ho.2.2
    · intro u h1 h2
      have h2 : u ≤ s.g.N := h2
      have hi := hn.back u h1 h2
      show VInfo.parent (if 1 ≤ u ∧ u ≤ s.g.N then _ else s.VI u) ≤ s.g.N
      rw [if_pos ⟨h1, h2⟩]
      simp only [relab]
      split
      · omega
      · next hne => exact (hn.out _ (by omega) (hp _ hi.1 hi.2.1)).2.1

/-- The graph after a search that ran. -/
def searched (s0 : PGraph) (r : Rec) (order : List Nat) : PGraph :=
  (conc s0 r order []).setG { (conc s0 r order []).g with flags := s0.g.flags ||| 1 }

theorem mem_order {N : Nat} {rot hd r order} (h : DInv N rot hd r order []) (hl : order.length = N) {u : Nat} (h1 : 1 ≤ u) (h2 : u ≤ N) :
    u ∈ order := by
  have hsub : order ⊆ List.range' 1 N := by
    intro x hx
    rw [List.mem_range'_1]; have := h.range x hx; omega
  have hp := (h.nodup.subperm hsub).perm_of_length_le (by simp [hl])
  exact hp.mem_iff.2 (by rw [List.mem_range'_1]; omega)

theorem PInv.searched {s rot r order} (h : PInv s rot) (hd : DInv s.g.N rot (hdOf s) r order [])
    (hfr : Frame s rot r order) (hl : order.length = s.g.N) : PInv (searched s r order) rot := by
  have hnum : (DFS.searched s r order).g.dfsNumbered = true := by
    simp [dfsNumbered, DFS.searched, PGraph.setG]
  refine ⟨?_, h.prim, h.cap, h.cap', ?_, ?_, fun hn => by rw [hnum] at hn; cases hn⟩
  · refine h.inv.congr rfl rfl rfl rfl rfl ?_ ?_ (fun _ => rfl) ?_
    · intro v b; cases b <;> rfl
    · intro v b; cases b <;> rfl
    · intro e he
      show ({ s.g.E e with flags := (s.g.E e).flags ||| r.ty e } : ERec) = s.g.E e
      rw [hfr.dead e he, Nat.or_zero]
  · rw [hnum]; intro h; cases h
  · intro _
    refine ⟨exists_numbering ?_ ?_, ?_⟩
    · intro u h1 h2
      have := hd.idxR u (mem_order hd hl h1 h2)
      rw [hl] at this
      exact this
    · intro u w h1 h2 h3 h4 he
      exact hd.idxInj u (mem_order hd hl h1 h2) w (mem_order hd hl h3 h4) he
    · intro u h1 h2
      rcases hd.parIn u (mem_order hd hl h1 h2) with h | h
      · show r.par u ≤ s.g.N
        omega
      · exact (hd.range _ h.1).2

theorem PInv.dfs {s rot} (h : PInv s rot) {s' : PGraph} {r : Res} (hs : s.createDFSTree = some (s', r)) :
    r = .ok ∧ s'.g.dfsNumbered = true ∧ PInv s' rot := by
  by_cases hf : s.g.dfsNumbered = true
  · simp only [PGraph.createDFSTree, hf, if_true] at hs
    cases hs
    exact ⟨rfl, hf, h⟩
  · rw [Bool.not_eq_true] at hf
    obtain ⟨rec, order, h1, h2, h3, h4⟩ := createDFSTree_spec (h.start hf) hf
    rw [hs] at h1
    cases h1
    exact ⟨rfl, by simp [dfsNumbered, PGraph.setG], h.searched h2 h3 h4⟩

theorem PInv.sort {s rot} (h : PInv s rot) {s' : PGraph} {r : Res} (hs : s.sortVertices = some (s', r)) :
    r = .ok ∧ ∃ rot', PInv s' rot' := by
  unfold PGraph.sortVertices at hs
  split at hs
  · next hf =>
    obtain ⟨⟨inv, hn⟩, hp⟩ := h.numbered hf
    rw [sortBody_eq h.inv hn hp] at hs
    cases hs
    exact ⟨rfl, _, h.sorted hn hp hf⟩
  · simp only [Option.bind_eq_bind, Option.bind_eq_some_iff] at hs
    obtain ⟨⟨s1, r1⟩, h1, hs⟩ := hs
    obtain ⟨rfl, hf, h1⟩ := h.dfs h1
    obtain ⟨⟨inv, hn⟩, hp⟩ := h1.numbered hf
    rw [sortBody_eq h1.inv hn hp] at hs
    cases hs
    exact ⟨rfl, _, h1.sorted hn hp hf⟩

end DFS

open DFS in
theorem PReach.inv {s : PGraph} (h : PReach s) : ∃ rot, PInv s rot := by
  induction h with
  | init N c _ hc => exact ⟨_, PInv.init N c hc⟩
  | edit _ hv hp hs ih =>
    obtain ⟨rot, hI⟩ := ih
    obtain ⟨rot', hf⟩ := step_frame hI.inv hI.prim hv hp hs
    exact ⟨rot', hI.edit hf⟩
  | ensure req a _ he ih => obtain ⟨rot, h⟩ := ih; exact ⟨rot, h.ensure req a he⟩
  | reinit _ ih => obtain ⟨rot, h⟩ := ih; exact ⟨_, h.reinit⟩
  | dfs _ hs ih => obtain ⟨rot, h⟩ := ih; exact ⟨rot, (h.dfs hs).2.2⟩
  | sort _ hs ih => obtain ⟨rot, h⟩ := ih; exact (h.sort hs).2

end Verif
