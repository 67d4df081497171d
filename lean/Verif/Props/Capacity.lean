import Verif.Graph.Agree
import Verif.Spec.Copy
import Verif.Props.Vertices

/-
Property theorems C13 (gp_DynamicAddEdge), C14 (gp_EnsureArcCapacity), C16 (copies),
C17 (reinitialisation), C57 (gp_CopyAdjacencyLists).
-/
namespace Verif.Props
open Verif Verif.Graph

/-! ## Helpers -/

theorem sameObs_of_agree {c g d rot} (h : Agree c g d) (hI : Inv g rot) : SameObs g d := by
  refine ⟨⟨h.N, h.M, h.flags, h.holes⟩, fun v hv => ?_, fun e he => ?_, fun v hv => ?_⟩
  · rw [vSize_iff] at hv
    have := hasList hI.links hv.2
    exact ⟨rot v, this, h.walk this.1, h.walk this.2⟩
  · rw [live_iff hI] at he
    obtain ⟨w, hw⟩ := he
    have hb := (hI.links.arc w e hw).2
    have hE := h.E e hb
    have hb' : e < d.eSize := by have := h.eSize; omega
    refine ⟨by rw [getNbr_eq hb, getNbr_eq hb', hE], ?_, by rw [hE]⟩
    simp [getDirection, rdE, hb, hb', hE]
  · rw [vSize_iff] at hv
    exact h.vdata v hv.1 hv.2

theorem agree_ensure {g rot} (hI : Inv g rot) (req : Int) (a : Allocs)
    (he : (g.ensureArcCapacity req a).edgesNull = false) :
    ∃ c, Agree c g (g.ensureArcCapacity req a).g := by
  have hE := ensure_E hI req a he
  have hI' := hI.ensure req a he
  generalize hk : g.ensureArcCapacity req a = k at *
  have h1 := ensure_cases g req a hI.holes_le
  simp only [hk] at h1
  have h2 := hI.holesCap
  rcases h1 with ⟨_, hk⟩ | ⟨⟨h0, h2⟩, ⟨_, hk⟩ | ⟨hlt, ⟨s, c, hk, _⟩ | ⟨s, c, hk, _⟩ | ⟨hk, _⟩⟩⟩
  · subst hk; exact ⟨0, rfl, rfl, rfl, rfl, rfl, h2, fun _ _ _ => rfl, fun _ _ _ => ⟨rfl, rfl⟩, fun e _ => rfl⟩
  · subst hk; exact ⟨0, rfl, rfl, rfl, rfl, rfl, hI.holesCap, fun _ _ _ => rfl, fun _ _ _ => ⟨rfl, rfl⟩, fun e _ => rfl⟩
  · refine ⟨req.toNat - g.arcCap, ?_⟩
    subst hk
    exact ⟨rfl, rfl, rfl, rfl, by simp only; omega, by simp only; omega, fun _ _ _ => rfl,
      fun _ _ _ => ⟨rfl, rfl⟩, fun e _ => hE e⟩
  · subst hk; exact ⟨0, rfl, rfl, rfl, rfl, rfl, hI.holesCap, fun _ _ _ => rfl, fun _ _ _ => ⟨rfl, rfl⟩, fun e _ => rfl⟩
  · rw [hk] at he; exact absurd he (by simp)

/-! ## C14 -/

/-- **C14 (all but a failing reallocation of the edge array).** Non-positive and odd requests are
refused without any change. Otherwise, whichever of the two stack allocations fail, the graph
stays intact and shows the same content; the call returns OK exactly when the capacity afterwards
is the larger of the old capacity and the request, NOTOK with unchanged capacity otherwise; and
with enough memory it returns OK. -/
theorem C14_ensure_partial {g : Graph} (hr : Reach g) (req : Int) (a : Allocs) (ha : a.edges = true) :
    let k := g.ensureArcCapacity req a
    (req ≤ 0 ∨ req % 2 ≠ 0 → k = ⟨g, false, .notok⟩) ∧
    k.deref = some k.g ∧ SameObs g k.g ∧ Reach k.g ∧
    (g.stack.length ≤ g.stackCap → k.g.stack = g.stack ∧ k.g.stack.length ≤ k.g.stackCap) ∧
    (0 < req → req % 2 = 0 →
      (k.res = .ok ∧ (k.g.arcCap : Int) = max (g.arcCap : Int) req ∨
        k.res = .notok ∧ k.g.arcCap = g.arcCap ∧ (a.stack = false ∨ a.holes = false))) := by
  intro k
  obtain ⟨rot, h⟩ := hr.inv
  have hc : _ := ensure_cases g req a h.holes_le
  simp only at hc
  have he : k.edgesNull = false := by
    rcases hc with ⟨_, hk⟩ | ⟨⟨h0, h2⟩, ⟨_, hk⟩ | ⟨hlt, ⟨s, c, hk, _⟩ | ⟨s, c, hk, _⟩ | ⟨_, _, hk⟩⟩⟩
    · simp only [k, hk]
    · simp only [k, hk]
    · simp only [k, hk]
    · simp only [k, hk]
    · rw [hk] at ha; exact absurd ha (by simp)
  obtain ⟨c, hA⟩ := agree_ensure h req a he
  refine ⟨?_, by simp [Grown.deref, he], sameObs_of_agree hA h, hr.ensure req a he, ?_, ?_⟩
  · intro hbad
    rcases hc with ⟨_, hk⟩ | ⟨hh, _⟩
    · exact hk
    · omega
  · intro hst
    rcases hc with ⟨_, hk⟩ | ⟨⟨h0, h2⟩, ⟨_, hk⟩ | ⟨hlt, ⟨s, c, hk, h3, h4⟩ | ⟨s, c, hk, h3, h4, _⟩ | ⟨_, _, hk⟩⟩⟩
    · simp only [k, hk]; exact ⟨trivial, hst⟩
    · simp only [k, hk]; exact ⟨trivial, hst⟩
    · simp only [k, hk]; have := h4 hst; subst this; exact ⟨rfl, by omega⟩
    · simp only [k, hk]; have := h4 hst; subst this; exact ⟨rfl, by omega⟩
    · rw [hk] at ha; exact absurd ha (by simp)
  · intro h0 h2
    rcases hc with ⟨hh, _⟩ | ⟨_, ⟨hle, hk⟩ | ⟨hlt, ⟨s, c, hk, h3, h4⟩ | ⟨s, c, hk, h3, h4, h5⟩ | ⟨_, _, hk⟩⟩⟩
    · omega
    · left; simp only [k, hk]; exact ⟨trivial, by omega⟩
    · left; simp only [k, hk]; exact ⟨trivial, by omega⟩
    · right; simp only [k, hk]; exact ⟨trivial, trivial, h5⟩
    · rw [hk] at ha; exact absurd ha (by simp)

/-- **C14 is false of the code**: whenever a request needs a larger edge array and the
reallocation fails, the graph's edge array pointer is NULL afterwards: the graph is not intact,
whatever edges it has. -/
theorem C14_realloc_failure_false {g : Graph} {req : Int} (hq : (g.arcCap : Int) < req)
    (hev : req % 2 = 0) :
    (g.ensureArcCapacity req { edges := false }).res = .notok ∧
    (g.ensureArcCapacity req { edges := false }).deref = none := by
  unfold ensureArcCapacity
  rw [if_neg (by omega), if_neg (by omega), if_neg (by omega)]
  unfold ensureBase
  rw [if_neg (by unfold eSize; omega)]
  obtain ⟨s, c, h1, -⟩ := growStack_ok g req.toNat
  rw [h1]
  simp [Grown.deref]

example : Reach path ∧ path.M = 3 ∧ (path.arcCap : Int) < 20 ∧
    (path.ensureArcCapacity 20 { holes := false }).res = .notok ∧
    (path.ensureArcCapacity 20 {}).res = .ok :=
  ⟨path_reach, by decide +kernel, by decide +kernel, by decide +kernel, by decide +kernel⟩

/-! ## C13 -/

theorem addEdge_full {g : Graph} {u v ul vl : Nat} (hu : IsVertex g u) (hv : IsVertex g v)
    (hM : g.arcCap / 2 ≤ g.M) : g.addEdge u ul v vl = some (g, .nonembeddable) := by
  have hk : ∀ {w : Nat}, IsVertex g w → g.vertexOk (w : Int) = true := by
    intro w hw; unfold IsVertex at hw; simp [vertexOk]; omega
  simp [addEdge, hk hu, hk hv, hM]

theorem vertexOk_of {g : Graph} {w : Nat} (hw : IsVertex g w) : g.vertexOk (w : Int) = true := by
  unfold IsVertex at hw; simp [vertexOk]; omega

theorem consecutive_even (n : Nat) : ((n : Int) * ((n : Int) - 1)) % 2 = 0 := by
  rcases Int.emod_two_eq_zero_or_one (n : Int) with h | h
  · rw [Int.mul_emod, h]; simp
  · rw [Int.mul_emod, show ((n : Int) - 1) % 2 = 0 by omega]; simp

theorem C13_dynamicAdd_reach {g : Graph} (hr : Reach g) {u v ul vl : Nat} (hu : IsVertex g u)
    (hv : IsVertex g v) (hul : ul ≤ 1) (hvl : vl ≤ 1) (h6 : 6 ≤ g.arcCap)
    (hM : 2 * (g.M : Int) < (g.N : Int) * ((g.N : Int) - 1)) :
    ∃ g1 g' x, g.dynamicAddEdge u ul v vl {} = some (g', .ok) ∧ SameObs g g1 ∧
      g.arcCap ≤ g1.arcCap ∧ EdgePlaced g1 g' x u 0 ul v 0 vl ∧ Reach g' ∧ Reach g1 := by
  obtain ⟨rot, h⟩ := hr.inv
  have hev := h.even
  have hreach : ∀ {g1 g' : Graph}, Reach g1 → g1.addEdge u ul v vl = some (g', .ok) → Reach g' := by
    intro g1 g' hr1 he
    exact hr1.step (op := .add u ul v vl) (out := .code .ok) ⟨hul, hvl⟩ (by simp [Graph.step, he])
  by_cases hfull : g.M < g.arcCap / 2
  · obtain ⟨g', x, hg', hp⟩ := C04_addEdge_position hr hu hv hul hvl hfull
    refine ⟨g, g', x, ?_, ?_, le_rfl, hp, hreach hr hg', hr⟩
    · unfold dynamicAddEdge
      simp [vertexOk_of hu, vertexOk_of hv, hg']
    · exact sameObs_of_agree (c := 0) ⟨rfl, rfl, rfl, rfl, rfl, h.holesCap, fun _ _ _ => rfl,
        fun _ _ _ => ⟨rfl, rfl⟩, fun _ _ => rfl⟩ h
  · have hM' : g.arcCap / 2 ≤ g.M := Nat.not_lt.1 hfull
    have hMle : g.M ≤ g.arcCap / 2 := by have := h.room; omega
    have hcons := consecutive_even g.N
    have hcap : (g.arcCap : Int) < g.dynamicCapacity ∧ g.dynamicCapacity % 2 = 0 := by
      have hd : g.dynamicCapacity = (g.N : Int) * ((g.N : Int) - 1) ∨
          g.dynamicCapacity = ((g.arcCap : Int) - 2) * 2 := by
        unfold dynamicCapacity getArcCapacity
        by_cases hx : ((g.arcCap : Int) - 2) * 2 > (g.N : Int) * ((g.N : Int) - 1)
        · exact .inl (by simp [hx])
        · exact .inr (by simp [hx])
      rcases hd with hd | hd
      · rw [hd]; exact ⟨by omega, hcons⟩
      · rw [hd]; omega
    obtain ⟨h1, h2, hobs, hr1, -, h3⟩ := C14_ensure_partial hr g.dynamicCapacity {} rfl
    obtain ⟨hres, hac⟩ := (h3 (by omega) hcap.2).resolve_right (by simp)
    generalize hk : g.ensureArcCapacity g.dynamicCapacity {} = k at *
    have hu1 : IsVertex k.g u := by unfold IsVertex at *; rw [hobs.size.1]; exact hu
    have hv1 : IsVertex k.g v := by unfold IsVertex at *; rw [hobs.size.1]; exact hv
    obtain ⟨rot1, hI1⟩ := hr1.inv
    have hev1 := hI1.even
    obtain ⟨g', x, hg', hp⟩ := C04_addEdge_position hr1 hu1 hv1 hul hvl (by
      rw [hobs.size.2.1]; omega)
    refine ⟨k.g, g', x, ?_, hobs, by omega, hp, hreach hr1 hg', hr1⟩
    unfold dynamicAddEdge
    simp [vertexOk_of hu, vertexOk_of hv, addEdge_full hu hv hM', hk, hres, hg']

/-- **C13 (arc capacity at least 6).** With valid endpoints and fewer than N(N-1)/2 edges,
gp_DynamicAddEdge succeeds: it adds the edge as gp_AddEdge would, in a graph `g1` that shows the
same content and is not smaller. -/
theorem C13_dynamicAdd_partial {g : Graph} (hr : Reach g) {u v ul vl : Nat} (hu : IsVertex g u)
    (hv : IsVertex g v) (hul : ul ≤ 1) (hvl : vl ≤ 1) (h6 : 6 ≤ g.arcCap)
    (hM : 2 * (g.M : Int) < (g.N : Int) * ((g.N : Int) - 1)) :
    ∃ g1 g' x, g.dynamicAddEdge u ul v vl {} = some (g', .ok) ∧ SameObs g g1 ∧
      g.arcCap ≤ g1.arcCap ∧ EdgePlaced g1 g' x u 0 ul v 0 vl ∧ Reach g' := by
  obtain ⟨g1, g', x, h1, h2, h3, h4, h5, -⟩ := C13_dynamicAdd_reach hr hu hv hul hvl h6 hM
  exact ⟨g1, g', x, h1, h2, h3, h4, h5⟩

/-- **C13 is false of the code**: with arc capacity 2 or 4 (set with gp_EnsureArcCapacity before
gp_InitGraph) the call fails although the graph is far from having all N(N-1)/2 edges. -/
theorem C13_dynamicAdd_false :
    ¬ ∀ (g : Graph) (u v : Nat), Reach g → IsVertex g u → IsVertex g v →
      2 * (g.M : Int) < (g.N : Int) * ((g.N : Int) - 1) →
      ∃ g', g.dynamicAddEdge u 0 v 0 {} = some (g', .ok) := by
  intro hall
  have hr : Reach (((exec (Graph.init 4 4) [.add 1 0 2 0, .add 2 0 3 0]).map Prod.fst).getD
      (Graph.init 0 0)) := runOk (by decide) rfl (by decide +kernel)
  obtain ⟨g', h⟩ := hall _ 1 4 hr (by unfold IsVertex; decide +kernel)
    (by unfold IsVertex; decide +kernel) (by decide +kernel)
  have h2 : ((((exec (Graph.init 4 4) [.add 1 0 2 0, .add 2 0 3 0]).map Prod.fst).getD
      (Graph.init 0 0)).dynamicAddEdge 1 0 4 0 {}).map Prod.snd = some .nonembeddable := by
    decide +kernel
  rw [show ((1 : Nat) : Int) = 1 from rfl, show ((4 : Nat) : Int) = 4 from rfl] at h
  rw [h] at h2
  simp at h2

/-- With capacity 2 the request is for 0 arcs, which is refused: NOTOK. -/
theorem C13_capacity_two {g : Graph} (h2 : g.arcCap = 2) (hM : g.M = 1) (hN : 2 ≤ g.N) {u v ul vl : Nat}
    (hu : IsVertex g u) (hv : IsVertex g v) :
    g.dynamicAddEdge u ul v vl {} = some (g, .notok) := by
  have hc : g.dynamicCapacity = 0 := by
    have : (0 : Int) ≤ (g.N : Int) * ((g.N : Int) - 1) :=
      Int.mul_nonneg (by omega) (by omega)
    simp only [dynamicCapacity, getArcCapacity, h2]
    split <;> omega
  unfold dynamicAddEdge
  simp [vertexOk_of hu, vertexOk_of hv, addEdge_full hu hv (by omega), hc, ensureArcCapacity]

/-- A graph with full capacity 6 (three edges) and room for three more. -/
def fullSix : Graph := ((exec (Graph.init 4 6) [.add 1 0 2 0, .add 2 0 3 0, .add 3 0 4 0]).map
  Prod.fst).getD (Graph.init 0 0)
theorem fullSix_reach : Reach fullSix := runOk (by decide) rfl (by decide +kernel)

example : Reach fullSix ∧ IsVertex fullSix 1 ∧ IsVertex fullSix 4 ∧ 6 ≤ fullSix.arcCap ∧
    fullSix.M = fullSix.arcCap / 2 ∧ 2 * (fullSix.M : Int) < (fullSix.N : Int) * ((fullSix.N : Int) - 1) :=
  ⟨fullSix_reach, by unfold IsVertex; decide +kernel, by unfold IsVertex; decide +kernel,
    by decide +kernel, by decide +kernel, by decide +kernel⟩

/-! ## C17 -/

/-- **C17.** After gp_ReinitializeGraph any graph shows what a newly initialised graph of the same
order and capacity shows, its work stack is empty, and every later sequence of valid edge calls
gives the same results and the same content as on the new graph. -/
theorem C17_reinitialize {g : Graph} (hr : Reach g) :
    SameObs (Graph.init g.N g.arcCap) g.reinit ∧ g.reinit.stack = [] ∧
    g.reinit.arcCap = g.arcCap ∧
    ∀ ops, ValidRun (Graph.init g.N g.arcCap) ops → ∀ n outs,
      exec (Graph.init g.N g.arcCap) ops = some (n, outs) →
      ∃ g', exec g.reinit ops = some (g', outs) ∧ SameObs n g' := by
  obtain ⟨rot, h⟩ := hr.inv
  have hI := Inv.init g.N g.arcCap h.even
  have hA : Agree 0 (Graph.init g.N g.arcCap) g.reinit := by
    refine ⟨rfl, rfl, rfl, rfl, rfl, h.holesCap, fun v hv b => ?_, fun v _ hv => ?_, fun e _ => ?_⟩
    · have : v < g.vSize := hv
      simp [Graph.reinit, Graph.init, this]
    · have : v < g.vSize := hv
      simp [Graph.reinit, Graph.init, this]
    · rw [reinit_E h]; rfl
  refine ⟨sameObs_of_agree hA hI, rfl, rfl, fun ops hv n outs he => ?_⟩
  obtain ⟨d', hd, hA', rot', hI'⟩ := agree_exec ops hA hI hv he (.inr rfl)
  exact ⟨d', hd, sameObs_of_agree hA' hI'⟩

example : Reach path ∧ path.M = 3 ∧ path.reinit.M = 0 ∧
    ValidRun (Graph.init path.N path.arcCap) pathOps :=
  ⟨path_reach, by decide +kernel, rfl, validRunB_sound _ (by decide +kernel)⟩

/-! ## C16 -/

theorem agree_copy {d s : Graph} {rotd rots} (hd : Inv d rotd) (hs : Inv s rots) (hN : d.N = s.N)
    (hN0 : 0 < s.N) (hc : 0 < s.arcCap) :
    ∃ g c, copyGraph d s = (g, .ok) ∧ Agree c s g ∧ g.arcCap = max d.arcCap s.arcCap := by
  obtain ⟨g, h1, hgN, hgM, hgF, -, hgH, hgA, hgC, -, hV, hV0, hE, -⟩ := copyGraph_spec hd hs hN hN0 hc
  refine ⟨g, g.arcCap - s.arcCap, h1, ⟨hgN, hgM, hgF, hgH, by omega, by omega, fun v hv b => ?_,
    fun v h1 hv => ?_, hE⟩, hgA⟩
  · by_cases hv0 : v = 0
    · subst hv0
      rw [hV0, hs.links.vlink 0 b hv, hs.rot_zero]; simp [endIn]
    · rw [hV v (by omega) hv]
  · rw [hV v h1 hv]; exact ⟨rfl, rfl⟩

/-- **C16 (gp_CopyGraph).** Copying between initialised graphs of the same order succeeds,
whatever the destination held and whatever its capacity; the copy shows the source's content; and
any later sequence of valid calls that does not exhaust the source's capacity gives the same
results and the same content on the copy. -/
theorem C16_copyGraph {d s : Graph} (hd : Reach d) (hs : Reach s) (hN : d.N = s.N) (hN0 : 0 < s.N)
    (hc : 0 < s.arcCap) :
    ∃ g, copyGraph d s = (g, .ok) ∧ SameObs s g ∧ g.stack = s.stack ∧
      g.arcCap = max d.arcCap s.arcCap ∧
      ∀ ops, ValidRun s ops → ∀ s' outs, exec s ops = some (s', outs) →
        Out.code .nonembeddable ∉ outs → ∃ g', exec g ops = some (g', outs) ∧ SameObs s' g' := by
  obtain ⟨rotd, hId⟩ := hd.inv
  obtain ⟨rots, hIs⟩ := hs.inv
  obtain ⟨g, c, h1, hA, hac⟩ := agree_copy hId hIs hN hN0 hc
  obtain ⟨g2, h2, -, -, -, hst, -⟩ := copyGraph_spec hId hIs hN hN0 hc
  rw [h1] at h2; cases h2
  refine ⟨g, h1, sameObs_of_agree hA hIs, hst, hac, fun ops hv s' outs he ho => ?_⟩
  obtain ⟨d', hd', hA', rot', hI'⟩ := agree_exec ops hA hIs hv he (.inl ho)
  exact ⟨d', hd', sameObs_of_agree hA' hI'⟩

/-- **C16 (gp_DupGraph).** The duplicate shows the original's content and behaves like it; it is
itself a graph that edge calls could have built (so every other theorem applies to it). -/
theorem C16_dupGraph {s : Graph} (hs : Reach s) (hN0 : 0 < s.N) (hc : 0 < s.arcCap) :
    ∃ g, dupGraph s = (g, .ok) ∧ SameObs s g ∧ g.stack = s.stack ∧ Reach g ∧
      ∀ ops, ValidRun s ops → ∀ s' outs, exec s ops = some (s', outs) →
        Out.code .nonembeddable ∉ outs → ∃ g', exec g ops = some (g', outs) ∧ SameObs s' g' := by
  have hd : Reach (Graph.init s.N (6 * s.N)) := .init _ _ hN0 (by omega)
  obtain ⟨g, h1, h2, h3, -, h4⟩ := C16_copyGraph hd hs rfl hN0 hc
  exact ⟨g, h1, h2, h3, .copy hd hs (fun _ _ => rfl) rfl hN0 hc h1, h4⟩

/-- The restriction in C16 is needed: a destination with larger capacity keeps old records beyond
the source's array, so once the source's capacity is exceeded a new edge of the copy can be born
directed. (Source: no edges, capacity 2; destination: capacity 4 with a directed second edge.) -/
theorem C16_stale_records :
    ∃ d s g g', Reach d ∧ Reach s ∧ d.N = s.N ∧ copyGraph d s = (g, .ok) ∧
      exec g [.add 1 0 2 0, .add 1 0 2 0] = some (g', [.code .ok, .code .ok]) ∧
      Live g' 5 ∧ g'.getDirection 5 = some 32 := by
  have hd : Reach (((exec (Graph.init 2 4) [.add 1 0 2 0, .add 1 0 2 0, .direct 5 32]).map
    Prod.fst).getD (Graph.init 0 0)) := runOk (by decide) rfl (by decide +kernel)
  obtain ⟨d, hdd⟩ : ∃ d, d = (((exec (Graph.init 2 4) [.add 1 0 2 0, .add 1 0 2 0,
    .direct 5 32]).map Prod.fst).getD (Graph.init 0 0)) := ⟨_, rfl⟩
  have hg : copyGraph d (Graph.init 2 2) = ((copyGraph d (Graph.init 2 2)).1, .ok) := by
    rw [hdd]
    have : (copyGraph (((exec (Graph.init 2 4) [.add 1 0 2 0, .add 1 0 2 0,
      .direct 5 32]).map Prod.fst).getD (Graph.init 0 0)) (Graph.init 2 2)).2 = .ok := by
      decide +kernel
    rw [← this]
  have hx : (exec (copyGraph d (Graph.init 2 2)).1 [.add 1 0 2 0, .add 1 0 2 0]).map
      (fun p => (p.2, p.1.walk false 1, p.1.getDirection 5)) =
      some ([.code .ok, .code .ok], some [5, 3], some 32) := by
    rw [hdd]; decide +kernel
  rcases he : exec (copyGraph d (Graph.init 2 2)).1 [.add 1 0 2 0, .add 1 0 2 0] with _ | ⟨g', outs⟩
  · rw [he] at hx; simp at hx
  · rw [he] at hx
    simp only [Option.map_some, Option.some.injEq, Prod.mk.injEq] at hx
    obtain ⟨rfl, hw, hdir⟩ := hx
    refine ⟨d, Graph.init 2 2, _, g', by rw [hdd]; exact hd, .init 2 2 (by decide) rfl,
      by rw [hdd]; decide +kernel, hg, he, ⟨1, _, hw, by simp⟩, hdir⟩

example : Reach fullSix ∧ Reach (Graph.init 4 24) ∧ (Graph.init 4 24).N = fullSix.N ∧ 0 < fullSix.N ∧
    0 < fullSix.arcCap := ⟨fullSix_reach, .init 4 24 (by decide) rfl, by decide +kernel,
      by decide +kernel, by decide +kernel⟩

/-! ## C57 -/

theorem walkFrom_congr {g d : Graph} (b : Bool) :
    ∀ (f k e : Nat) (L : List Nat), g.walkFrom b f e = some L → f ≤ k →
      (∀ x ∈ L, d.getAdj x b = g.getAdj x b) → d.walkFrom b k e = some L := by
  intro f
  induction f with
  | zero =>
    intro k e L hL _ _
    simp only [walkFrom] at hL
    split at hL
    · next he => cases hL; cases k <;> simp [walkFrom, he]
    · exact absurd hL (by simp)
  | succ f ih =>
    intro k e L hL hk hx
    obtain ⟨k, rfl⟩ : ∃ k', k = k' + 1 := ⟨k - 1, by omega⟩
    simp only [walkFrom] at hL ⊢
    split at hL
    · next he => cases hL; simp [he]
    · next he =>
      rw [if_neg he]
      obtain ⟨x, h1, h2⟩ := Option.bind_eq_some_iff.1 hL
      obtain ⟨r, h3, h4⟩ := Option.bind_eq_some_iff.1 h2
      cases h4
      simp only [Option.bind_eq_bind, hx e (by simp), h1, Option.bind_some,
        ih k x r h3 (by omega) fun y hy => hx y (by simp [hy])]
      rfl

/-- **C57.** gp_CopyAdjacencyLists gives every primary vertex of the destination the source's
adjacency list, in both directions, with the same neighbours, and the source's edge count and free
slots; vertex data, edge flags (so also edge directions) and graph flags of the destination stay. -/
theorem C57_copyAdjacencyLists {d s : Graph} (hd : Reach d) (hs : Reach s) (hN : d.N = s.N)
    (hN0 : 0 < s.N) (hc : 0 < s.arcCap) :
    ∃ g, copyAdjacencyLists d s = (g, .ok) ∧ g.N = s.N ∧ g.M = s.M ∧ g.holes = s.holes ∧
      (∀ v, 1 ≤ v → v ≤ s.N → ∃ L, HasList s v L ∧ HasList g v L ∧
        ∀ e ∈ L, g.getNbr e = s.getNbr e) ∧
      (∀ v, (g.V v).index = (d.V v).index ∧ (g.V v).flags = (d.V v).flags) ∧
      (∀ e, (g.E e).flags = (d.E e).flags) ∧ g.flags = d.flags := by
  obtain ⟨rotd, hId⟩ := hd.inv
  obtain ⟨rots, hIs⟩ := hs.inv
  obtain ⟨k, hk, hkN, hkA, hkI, hkV, hkE⟩ := ensure_success hId hc hIs.even
  have hkE' := ensure_E hId s.arcCap {} (by rw [hk])
  rw [hk] at hkE'
  have hkF : k.flags = d.flags := by
    obtain ⟨c, hA⟩ := agree_ensure hId s.arcCap {} (by rw [hk])
    have := hA.flags; rw [hk] at this; exact this
  obtain ⟨g, hg⟩ : ∃ g, copyAdjacencyLists d s = (g, .ok) ∧ g.N = k.N ∧ g.M = s.M ∧
      g.holes = s.holes ∧ g.arcCap = k.arcCap ∧ g.flags = k.flags ∧
      (∀ v, g.V v = if 1 ≤ v ∧ v ≤ s.N then
             { k.V v with first := (s.V v).first, last := (s.V v).last } else k.V v) ∧
      (∀ e, g.E e = if 2 ≤ e ∧ e < s.inUse then
             { k.E e with nbr := (s.E e).nbr, next := (s.E e).next, prev := (s.E e).prev }
             else k.E e) := by
    refine ⟨k.copyLists s, ?_, rfl, rfl, rfl, rfl, rfl, fun _ => rfl, fun _ => rfl⟩
    unfold copyAdjacencyLists
    rw [if_neg (by omega)]
    simp [hk]
  obtain ⟨h1, hgN, hgM, hgH, hgA, hgF, hV, hE⟩ := hg
  have hle : s.eSize ≤ g.eSize := by unfold eSize; omega
  have harc : ∀ v e, e ∈ rots v → (∀ b, g.getAdj e b = s.getAdj e b) ∧ g.getNbr e = s.getNbr e := by
    intro v e he
    have h2 := hIs.links.arc v e he
    have h3 := hIs.below v e he
    have := hE e
    rw [if_pos ⟨h2.1, h3⟩] at this
    refine ⟨fun b => ?_, ?_⟩
    · rw [getAdj_eq h2.2, getAdj_eq (by omega), this]; cases b <;> rfl
    · rw [getNbr_eq h2.2, getNbr_eq (by omega), this]
  refine ⟨g, h1, by omega, hgM, hgH, fun v hv1 hv2 => ?_, fun v => ?_, fun e => ?_, by rw [hgF, hkF]⟩
  · have hv : v < s.vSize := by unfold vSize; omega
    have hv' : v < g.vSize := by unfold vSize at *; omega
    have hL := hasList hIs.links hv
    have hwalk : ∀ b L, s.walk b v = some L → (∀ e ∈ L, e ∈ rots v) → g.walk b v = some L := by
      intro b L hw hm
      unfold walk at *
      rw [getArc_eq hv] at hw
      rw [getArc_eq hv']
      have : (g.V v).link b = (s.V v).link b := by
        rw [hV v, if_pos ⟨hv1, hv2⟩]; cases b <;> rfl
      rw [this]
      exact walkFrom_congr b _ _ _ _ hw hle fun x hx => (harc v x (hm x hx)).1 b
    refine ⟨rots v, hL, ⟨hwalk _ _ hL.1 fun e he => he, hwalk _ _ hL.2 fun e he => by simpa using he⟩,
      fun e he => (harc v e he).2⟩
  · rw [hV v, ← hkV]; split <;> exact ⟨rfl, rfl⟩
  · rw [hE e]; split <;> simp only [show k.E e = d.E e from hkE' e]

example : Reach fullSix ∧ Reach (Graph.init 4 24) ∧ fullSix.M = 3 :=
  ⟨fullSix_reach, .init 4 24 (by decide) rfl, by decide +kernel⟩

end Verif.Props
