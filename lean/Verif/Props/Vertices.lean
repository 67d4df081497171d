import Verif.Props.EdgeStore
import Verif.Graph.VertexLemmas

/-
Property theorems C09-C11: hiding, identifying, contracting and restoring vertices.
-/
namespace Verif.Props
open Verif Verif.Graph Function

/-! ## C09 -/

/-- Call gp_HideVertex for each vertex in turn; every call must return OK. -/
def hideVertices (g : Graph) : List Nat → Option Graph
  | [] => some g
  | v :: vs => do
      let (g', r) ← g.hideVertex v
      if r = .ok then hideVertices g' vs else none

/-- Call gp_RestoreVertex `n` times; every call must return OK. -/
def restoreTimes (g : Graph) : Nat → Option Graph
  | 0 => some g
  | n + 1 => do
      let (g', r) ← g.restoreVertex
      if r = .ok then restoreTimes g' n else none

theorem restoreTimes_add (g : Graph) (m n : Nat) :
    restoreTimes g (m + n) = (do restoreTimes (← restoreTimes g m) n) := by
  induction m generalizing g with
  | zero => simp [restoreTimes]
  | succ m ih =>
    rw [show m + 1 + n = (m + n) + 1 by omega]
    simp only [restoreTimes, Option.bind_eq_bind]
    rcases g.restoreVertex with _ | ⟨g', r⟩
    · rfl
    · simp only [Option.bind_some]
      split
      · rw [ih]; rfl
      · rfl

/-- Length of the list of `v` as a user would count it. -/
def listLength (g : Graph) (v : Nat) : Nat := ((g.walk false v).getD []).length

theorem hideVertices_spec : ∀ (vs : List Nat) {g : Graph} {rot : Nat → List Nat}, WInv g rot →
    (∀ v ∈ vs, 1 ≤ v ∧ v < g.vSize) → (∀ v ∈ vs, ∀ e ∈ rot v, (g.E e).nbr ≠ v) →
    g.stack.length + (vs.map fun v => (rot v).length + 7).sum ≤ g.stackCap →
    ∃ g' rot', hideVertices g vs = some g' ∧ WInv g' rot' ∧ g'.N = g.N ∧
      (∀ e, (g'.E e).nbr = (g.E e).nbr) ∧
      (∀ w, rot' w = if w ∈ vs then [] else (rot w).filter fun e => (g.E e).nbr ∉ vs) ∧
      restoreTimes g' vs.length = some g := by
  intro vs
  induction vs with
  | nil =>
    intro g rot h _ _ _
    exact ⟨g, rot, rfl, h, rfl, fun _ => rfl, by simp, rfl⟩
  | cons v vs ih =>
    intro g rot h hv hl hroom
    simp only [List.map_cons, List.sum_cons] at hroom
    obtain ⟨g1, hg1, h1, hs1, hc1, hN1, hn1, hr1⟩ := hideVertex_spec h (hv v (by simp))
      (hl v (by simp)) (by omega)
    have hrot1 := h.removeAll_eq v
    have hsub : ∀ w e, e ∈ removeAll (rot v) rot w → e ∈ rot w := by
      intro w e he; exact (List.mem_filter.1 he).1
    have hvs : g1.vSize = g.vSize := by simp [vSize, hN1]
    have hsum : (vs.map fun w => (removeAll (rot v) rot w).length + 7).sum ≤
        (vs.map fun w => (rot w).length + 7).sum := by
      clear hroom ih hv hl
      induction vs with
      | nil => exact le_refl _
      | cons w ws ihw =>
        have : (removeAll (rot v) rot w).length ≤ (rot w).length := List.length_filter_le _ _
        simp only [List.map_cons, List.sum_cons]; omega
    obtain ⟨g2, rot2, hg2, h2, hN2, hn2, hrot2, hr2⟩ := ih h1
      (fun w hw => by rw [hvs]; exact hv w (by simp [hw]))
      (fun w hw e he => by rw [hn1]; exact hl w (by simp [hw]) e (hsub w e he))
      (by rw [hs1, hc1]; omega)
    refine ⟨g2, rot2, ?_, h2, by rw [hN2, hN1], fun e => by rw [hn2, hn1], ?_, ?_⟩
    · simp [hideVertices, hg1, hg2]
    · intro w
      rw [hrot2 w, hrot1 w]
      by_cases hw : w ∈ vs
      · simp [hw]
      · by_cases hwv : w = v
        · simp [hwv]
        · simp only [hw, hwv, if_false, List.mem_cons, or_self, List.filter_filter]
          apply List.filter_congr
          intro e he
          rw [hn1]
          simp [not_or, Bool.and_comm]
    · rw [List.length_cons, restoreTimes_add, hr2]
      simp [restoreTimes, hr1]

/-- **C09.** On a reachable graph whose stack holds anything (`s`), hide any sequence of
loop-free vertices for which the stack has room. All calls succeed; the hidden vertices are
isolated and exactly their edges have disappeared from the other lists; and restoring the same
number of times gives back the identical graph and stack. -/
theorem C09_hide_restore_vertices {g : Graph} (hr : Reach g) (s vs : List Nat)
    (hv : ∀ v ∈ vs, IsVertex g v) (hl : ∀ v ∈ vs, ∀ e, g.ArcAt v e → g.getNbr e ≠ some v)
    (hroom : s.length + (vs.map fun v => listLength g v + 7).sum ≤ g.stackCap) :
    ∃ g', hideVertices (g.withStack s) vs = some g' ∧
      (∀ w, IsVertex g w → ∃ L, HasList g w L ∧ HasList g' w (if w ∈ vs then [] else
        L.filter fun e => ∀ v ∈ vs, g.getNbr e ≠ some v)) ∧
      restoreTimes g' vs.length = some (g.withStack s) := by
  obtain ⟨rot, h⟩ := hr.inv
  have hw := h.weak.withStack s
  have hvs : (g.withStack s).vSize = g.vSize := rfl
  have hlen : ∀ v ∈ vs, listLength g v = (rot v).length := by
    intro v hh
    simp [listLength, walk_eq h.links (vSize_iff.1 (hv v hh)).2 false]
  have hnbr : ∀ w e, e ∈ rot w → g.getNbr e = some (g.E e).nbr := fun w e he =>
    getNbr_eq (h.links.arc _ _ he).2
  obtain ⟨g', rot', h1, h2, hN, _, h3, h4⟩ := hideVertices_spec vs hw
    (fun v hh => vSize_iff.1 (hv v hh))
    (fun v hh e he hn => hl v hh e (h.arcAt.2 he) (by rw [hnbr v e he]; exact congrArg some hn))
    (by
      have : (vs.map fun v => (rot v).length + 7) = vs.map fun v => listLength g v + 7 :=
        List.map_congr_left fun v hh => by rw [hlen v hh]
      rw [this]; exact hroom)
  refine ⟨g', h1, ?_, h4⟩
  intro w hwv
  have hwv' := vSize_iff.1 hwv
  refine ⟨rot w, hasList h.links hwv'.2, ?_⟩
  have := hasList h2.links (w := w) (by rw [show g'.vSize = g.vSize by simp [vSize, hN, Graph.withStack]]; exact hwv'.2)
  rw [h3 w] at this
  have e : (rot w).filter (fun e => ((g.withStack s).E e).nbr ∉ vs) =
      (rot w).filter (fun e => ∀ v ∈ vs, g.getNbr e ≠ some v) := by
    apply List.filter_congr
    intro e he
    rw [hnbr w e he]
    apply decide_eq_decide.2
    constructor
    · intro hh v hv' hc; exact hh (by cases hc; exact hv')
    · intro hh hc; exact hh _ hc rfl
  rw [← e]; exact this

/-- gp_RestoreVertices does the same when the stack was empty. -/
theorem C09_restoreVertices {g : Graph} (hr : Reach g) (vs : List Nat)
    (hv : ∀ v ∈ vs, IsVertex g v) (hl : ∀ v ∈ vs, ∀ e, g.ArcAt v e → g.getNbr e ≠ some v)
    (hroom : (vs.map fun v => listLength g v + 7).sum ≤ g.stackCap) :
    ∃ g', hideVertices (g.withStack []) vs = some g' ∧
      ∀ fuel, vs.length ≤ fuel → restoreVertices fuel g' = some (g.withStack [], .ok) := by
  obtain ⟨g', h1, _, h3⟩ := C09_hide_restore_vertices hr [] vs hv hl (by simpa using hroom)
  refine ⟨g', h1, ?_⟩
  have key : ∀ (n : Nat) (g1 : Graph), restoreTimes g1 n = some (g.withStack []) →
      ∀ fuel, n ≤ fuel → restoreVertices fuel g1 = some (g.withStack [], .ok) := by
    intro n
    induction n with
    | zero =>
      intro g1 hh fuel _
      cases hh
      cases fuel <;> simp [restoreVertices, Graph.withStack]
    | succ n ih =>
      intro g1 hh fuel hf
      obtain ⟨fuel, rfl⟩ : ∃ f, fuel = f + 1 := ⟨fuel - 1, by omega⟩
      simp only [restoreTimes, Option.bind_eq_bind] at hh
      rcases hg : g1.restoreVertex with _ | ⟨g2, r⟩
      · simp [hg] at hh
      · rw [hg, Option.bind_some] at hh
        split at hh
        · next hok =>
          have hne : g1.stack.length > 0 := by
            by_contra hn
            have : g1.stack.length < 7 := by omega
            rw [restoreVertex, if_pos this] at hg
            cases hg; exact absurd hok (by simp)
          have hok' : r = Res.ok := hok
          subst hok'
          rw [restoreVertices, if_pos hne, hg]
          simp only [Option.bind_eq_bind, Option.bind_some]
          exact ih g2 hh fuel (by omega)
        · cases hh
  exact key _ g' h3

/-- Three vertices in a path plus a parallel edge; no self loops. -/
def pathOps : List Op := [.add 1 0 2 0, .add 2 1 3 0, .add 3 1 2 0]
def path : Graph := ((exec (Graph.init 3 18) pathOps).map Prod.fst).getD (Graph.init 0 0)

theorem runOk {N c : Nat} (hN : 0 < N) (hc : c % 2 = 0) {ops : List Op}
    (h : validRunB (Graph.init N c) ops = true) :
    Reach (((exec (Graph.init N c) ops).map Prod.fst).getD (Graph.init 0 0)) := by
  obtain ⟨g, outs, T, he, -⟩ := C01_history_refines_multigraph N c hc ops (validRunB_sound _ h)
  rw [he]
  exact reach_exec ops (.init N c hN hc) (validRunB_sound _ h) he

theorem path_reach : Reach path := runOk (by decide) rfl (by decide +kernel)

example : Reach path ∧ IsVertex path 2 ∧ (path.walk false 2 = some [6, 2, 5]) ∧
    [6, 2, 5].map path.getNbr = [some 3, some 1, some 3] ∧
    ([2, 1].map fun v => listLength path v + 7).sum ≤ path.stackCap := by
  refine ⟨path_reach, by unfold IsVertex; decide +kernel, by decide +kernel, by decide +kernel, by decide +kernel⟩

end Verif.Props
