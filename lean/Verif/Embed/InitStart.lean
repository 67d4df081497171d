import Verif.Embed.InitOuter

/-
The start of _EmbeddingInitialize.
-/
namespace Verif
open Verif.Graph Verif.DFS

namespace DFS

theorem sorted_numbered (s : PGraph) (inv : Nat → Nat) : (sortedOf s inv).g.dfsNumbered = s.g.dfsNumbered := by
  simp only [dfsNumbered, sortedOf]
  rw [decide_eq_decide, Nat.and_xor_distrib_right]
  simp

theorem PInv.sort_numbered {s rot} (h : PInv s rot) {s' : PGraph} {r : Res} (hs : s.sortVertices = some (s', r)) :
    s'.g.dfsNumbered = true := by
  unfold PGraph.sortVertices at hs
  split at hs
  · next hf =>
    obtain ⟨⟨inv, hn⟩, hp⟩ := h.numbered hf
    rw [sortBody_eq h.inv hn hp] at hs
    cases hs
    rw [sorted_numbered]; exact hf
  · simp only [Option.bind_eq_bind, Option.bind_eq_some_iff] at hs
    obtain ⟨⟨s1, r1⟩, h1, hs⟩ := hs
    obtain ⟨rfl, hf, h1⟩ := h.dfs h1
    obtain ⟨⟨inv, hn⟩, hp⟩ := h1.numbered hf
    rw [sortBody_eq h1.inv hn hp] at hs
    cases hs
    rw [sorted_numbered]; exact hf

end DFS

/-- Before any search there is no vertex information, and no arc is marked as inverted. -/
theorem PReach.clean {s : PGraph} (h : PReach s) : ∃ rot, PInv s rot ∧ (s.g.dfsNumbered = false →
    (∀ u, ∀ e ∈ rot u, (s.g.E e).flags &&& 30 = 0) ∧ ∀ x, s.VI x = {}) := by
  induction h with
  | init N c _ hc => exact ⟨_, PInv.init N c hc, fun _ => ⟨by simp, fun _ => rfl⟩⟩
  | @edit s g' _ _ _ hv hp hs ih =>
    obtain ⟨rot, hI, hc⟩ := ih
    obtain ⟨rot', hf⟩ := step_frame hI.inv hI.prim hv hp hs
    refine ⟨rot', hI.edit hf, ?_⟩
    intro hn
    have hn : g'.dfsNumbered = false := hn
    rw [dfsNumbered_congr hf.flags] at hn
    obtain ⟨c1, c2⟩ := hc hn
    refine ⟨?_, c2⟩
    intro u e he
    show (g'.E e).flags &&& 30 = 0
    rw [(hf.types u e he).1]
    rcases (hf.types u e he).2 with h1 | h1
    · exact c1 u e h1
    · exact h1
  | @ensure s req a _ he ih =>
    obtain ⟨rot, h, hc⟩ := ih
    refine ⟨rot, h.ensure req a he, ?_⟩
    obtain ⟨hN, hV, hF, hC, hC', hE⟩ := ensure_shape s.g req a h.cap h.cap' he
    intro hn
    have hn : (s.g.ensureArcCapacity req a).g.dfsNumbered = false := hn
    rw [dfsNumbered_congr hF] at hn
    obtain ⟨c1, c2⟩ := hc hn
    refine ⟨?_, c2⟩
    intro u e hm
    show ((s.g.ensureArcCapacity req a).g.E e).flags &&& 30 = 0
    rw [hE e (h.inv.links.arc u e hm).2]
    exact c1 u e hm
  | reinit _ ih => obtain ⟨rot, h, _⟩ := ih; exact ⟨_, h.reinit, fun _ => ⟨by simp, fun _ => rfl⟩⟩
  | dfs _ hs ih =>
    obtain ⟨rot, h, _⟩ := ih
    exact ⟨rot, (h.dfs hs).2.2, fun hn => by rw [(h.dfs hs).2.1] at hn; cases hn⟩
  | sort _ hs ih =>
    obtain ⟨rot, h, _⟩ := ih
    obtain ⟨rot', h'⟩ := (h.sort hs).2
    exact ⟨rot', h', fun hn => by rw [h.sort_numbered hs] at hn; cases hn⟩

end Verif

namespace Verif.Embed
open Verif Verif.Graph Verif.EGraph Verif.DFS Function

theorem lists_nil {c : LC.Coll} {hd : Nat → Nat} {n : Nat} (h : ∀ z, hd z = 0) : Lists c hd n (fun _ => []) :=
  ⟨fun z _ _ => h z, fun _ => trivial, fun _ => List.nodup_nil, by simp, by simp⟩

theorem srch_start {s0 : PGraph} {rot : Nat → List Nat} (hS : Start s0 rot) (hc : ∀ x, s0.VI x = {}) {g : Graph}
    (hg : s0.g.clearStack.clearVisitedAll = some g) : SrchAt s0 rot (startRec s0) [] [] ((ofP s0).setG g) := by
  rw [clearVisitedAll_eq] at hg
  obtain rfl := Option.some.inj hg
  refine ⟨DInv.start _ hS.pars (fun _ _ _ => rfl), ⟨fun _ _ => rfl, fun _ _ => rfl, fun _ _ => rfl⟩, rot, fun _ => [], fun _ => [], ?_⟩
  have hb : ∀ e, ¬ backOf s0 rot (startRec s0) [] e := by rintro e ⟨u, hu, _⟩; simp at hu
  have hR : ∀ v, s0.g.N < v → rot v = [] := by
    intro v hv
    rw [List.eq_nil_iff_forall_not_mem]
    intro e he
    have := hS.prim v e he; omega
  have hL : ∀ v b, (s0.g.V v).link b = (({ s0.g.V v with flags := if 1 ≤ v ∧ v ≤ s0.g.clearStack.N then
      (s0.g.V v).flags / 2 * 2 else (s0.g.V v).flags } : VRec)).link b := by intro v b; cases b <;> rfl
  constructor
  · rfl
  · rfl
  · rfl
  · rfl
  · rfl
  · rfl
  · rfl
  · rfl
  · intro e; rfl
  · intro u _; rfl
  · intro u h1 h2
    simp only [List.not_mem_nil, iff_false]
    show ¬ (if 1 ≤ u ∧ u ≤ s0.g.N then (s0.g.V u).flags / 2 * 2 else (s0.g.V u).flags) % 2 = 1
    rw [if_pos ⟨h1, h2⟩]; omega
  · intro u _ _; rfl
  · have hl := hS.inv.links
    refine ⟨?_, hl.elink, hl.nodup, hl.arc, hl.vert, hl.disj⟩
    intro v b hvs
    show (if v ≤ s0.g.N then ({ s0.g.V v with flags := if 1 ≤ v ∧ v ≤ s0.g.clearStack.N then
      (s0.g.V v).flags / 2 * 2 else (s0.g.V v).flags } : VRec) else {}).link b = _
    by_cases hv : v ≤ s0.g.N
    · rw [if_pos hv, ← hL]; exact hl.vlink v b hvs
    · rw [if_neg hv, hR v (by omega)]; cases b <;> rfl
  · intro u e; simp [hb]
  · intro u _; rfl
  · refine lists_nil ?_; intro z; show (s0.VI z).fwdArcList = 0; rw [hc]
  · intro w f; simp [hb]
  · intro w; simp
  · refine lists_nil ?_; intro z; show (s0.VI z).sortedDFSChildList = 0; rw [hc]
  · rfl
  · intro x c; simp
  · intro x; simp
  · intro u e he
    exact ⟨0, (Nat.or_zero _).symm, by simp, by simp [startRec], by simp [startRec], by simp, by simp⟩
  · intro e he; exact hS.inv.zero e he
  · intro e he; exact absurd he (hb e)
  · intro e u he; exact absurd he (hb e)
  · simp
  · simp
  · simp
  · intro x; show (s0.VI x).pertinentEdge = 0 ∧ (s0.VI x).pertinentRoots = 0; rw [hc]; exact ⟨rfl, rfl⟩
  · rfl
  · intro v hv hv2 _ b
    have := hS.inv.links.vlink v b (by unfold vSize; omega)
    rw [hR v hv] at this
    show (({ s0.g.V v with flags := if 1 ≤ v ∧ v ≤ s0.g.clearStack.N then
      (s0.g.V v).flags / 2 * 2 else (s0.g.V v).flags } : VRec)).link b = 0
    rw [← hL, this]; cases b <;> rfl

end Verif.Embed
