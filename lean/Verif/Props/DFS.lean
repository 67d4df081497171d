import Verif.DFS.Low
import Verif.Graph.Exec

/-
Properties of the depth-first search utilities: C18 - C22, C61, C62.
-/
namespace Verif.Props
open Verif Verif.Graph Verif.DFS Function

/-! ### The search -/

/-- The result of the search on a graph that has not been numbered. -/
theorem search_ok {s : PGraph} (h : PReach s) (hf : s.g.dfsNumbered = false) :
    ∃ s' num par rot, s.createDFSTree = some (s', .ok) ∧ PInv s' rot ∧ Forest s' num par ∧
      (∀ u, IsPrimary s' u → (s'.g.V u).index = num u) ∧ s'.g.dfsNumbered = true ∧ s'.g.sortedByDfi = false ∧
      SameArcs s.g s'.g ∧ (∀ u, IsPrimary s' u → (s'.g.V u).flags % 2 = 1) ∧
      (∀ u, (s'.VI u).leastAncestor = (s.VI u).leastAncestor) := by
  obtain ⟨rot, hI⟩ := h.inv
  obtain ⟨r, order, h1, h2, h3, h4⟩ := createDFSTree_spec (hI.start hf) hf
  have hPI := hI.searched h2 h3 h4
  refine ⟨searched s r order, r.idx, r.par, rot, h1, hPI, forest_searched hI hf h2 h3 h4, fun _ _ => rfl, ?_, ?_,
    ⟨rfl, rfl, ?_, ?_⟩, ?_, fun _ => rfl⟩
  · simp [dfsNumbered, searched, PGraph.setG]
  · have := hI.unsorted hf
    have hfl : (searched s r order).g.flags = s.g.flags ||| 1 := rfl
    simp only [sortedByDfi, decide_eq_false_iff_not] at this ⊢
    rw [hfl, Nat.and_or_distrib_right]
    simpa using this
  · intro b u
    by_cases hu : u < s.g.vSize
    · rw [walk_eq hI.inv.links hu, walk_eq hPI.inv.links hu]
    · have hu' : ¬ u < (searched s r order).g.vSize := hu
      simp [walk, getArc, rdV, hu, hu']
  · intro e
    show (if e < s.g.eSize then some _ else none).bind _ = (if e < s.g.eSize then some _ else none).bind _
    split <;> rfl
  · intro u hu
    show vflags s.g.N (s.g.V u).flags u order % 2 = 1
    have hu : 1 ≤ u ∧ u ≤ s.g.N := hu
    unfold vflags
    rw [if_pos hu, if_pos (mem_order h2 h4 hu.1 hu.2)]
    exact even_or _

theorem getIndex_some {s : PGraph} {u i : Nat} (hu : IsPrimary s u) (h : (s.g.V u).index = i) : s.g.getIndex u = some i := by
  have : u < s.g.vSize := by have := hu.2; unfold vSize; omega
  simp [getIndex, rdV, this, h]

/-- C18: gp_CreateDFSTree on a reachable graph that has not been numbered ends (without overflowing the work stack
or other undefined behaviour) with OK and leaves the graph alone. The vertices get pairwise different numbers 1..N;
a vertex with a parent has a smaller-numbered neighbour as its parent; and every component has exactly one vertex
without parent. -/
theorem dfs_numbers_all {s : PGraph} (h : PReach s) (hf : s.g.dfsNumbered = false) :
    ∃ (s' : PGraph) (num par : Nat → Nat), s.createDFSTree = some (s', .ok) ∧ s'.g.dfsNumbered = true ∧ SameArcs s.g s'.g ∧
      (∀ u, IsPrimary s u → s'.g.getIndex u = some (num u) ∧ 1 ≤ num u ∧ num u ≤ s.g.N) ∧
      (∀ u w, IsPrimary s u → IsPrimary s w → num u = num w → u = w) ∧
      (∀ u, IsPrimary s u → s'.getParent u = some (par u) ∧ (par u ≠ 0 → IsPrimary s (par u) ∧ num (par u) < num u ∧
        ∃ e, ArcTo s'.g (par u) e u)) ∧
      (∀ u, IsPrimary s u → ∃ r, (IsPrimary s r ∧ par r = 0 ∧ Joined s'.g u r) ∧
        ∀ r', IsPrimary s r' → par r' = 0 → Joined s'.g u r' → r' = r) := by
  obtain ⟨s', num, par, rot, h1, _, hF, hi, hn, _, hS, _⟩ := search_ok h hf
  have hp : ∀ u, IsPrimary s u ↔ IsPrimary s' u := by intro u; unfold IsPrimary; rw [hS.1]
  simp only [hp]
  refine ⟨s', num, par, h1, hn, hS, fun u hu => ⟨getIndex_some hu (hi u hu), ?_⟩, hF.inj, fun u hu => ⟨hF.parent u hu, ?_⟩, hF.root⟩
  · rw [← hS.1]; exact hF.range u hu
  · intro hne
    obtain ⟨a, b, e, ⟨c, _⟩, _⟩ := hF.up u hu hne
    exact ⟨a, b, e, c⟩

/-- C19: after gp_CreateDFSTree every edge joins a vertex with itself or with a tree ancestor; tree edges, and no
others, have the types CHILD and PARENT (each vertex with a parent has exactly one CHILD arc leading to it from the parent); other
edges between different vertices have the type FORWARD on the ancestor's side and BACK on the descendant's. -/
theorem dfs_no_cross_edges {s : PGraph} (h : PReach s) (hf : s.g.dfsNumbered = false) :
    ∃ (s' : PGraph) (par : Nat → Nat), s.createDFSTree = some (s', .ok) ∧ SameArcs s.g s'.g ∧
      (∀ u, IsPrimary s u → s'.getParent u = some (par u)) ∧
      (∀ u e w, ArcTo s'.g u e w → AncEq par u w ∨ AncEq par w u) ∧
      (∀ u e w, ArcTo s'.g u e w → RightTypes s' par u e w) ∧
      (∀ u, IsPrimary s u → par u ≠ 0 → ∃ e, (ArcTo s'.g (par u) e u ∧ s'.g.getType e = some 14) ∧
        ∀ e', ArcTo s'.g (par u) e' u → s'.g.getType e' = some 14 → e' = e) := by
  obtain ⟨s', num, par, rot, h1, _, hF, _, _, _, hS, _⟩ := search_ok h hf
  have hp : ∀ u, IsPrimary s u ↔ IsPrimary s' u := by intro u; unfold IsPrimary; rw [hS.1]
  simp only [hp]
  exact ⟨s', par, h1, hS, hF.parent, hF.related, hF.types, fun u hu hne => (hF.up u hu hne).2.2⟩

/-- C62: gp_CreateDFSTree numbers in preorder: the vertices of every subtree have consecutive numbers, the root of the
subtree first. -/
theorem dfs_preorder {s : PGraph} (h : PReach s) (hf : s.g.dfsNumbered = false) :
    ∃ (s' : PGraph) (num par : Nat → Nat), s.createDFSTree = some (s', .ok) ∧
      (∀ u, IsPrimary s u → s'.g.getIndex u = some (num u) ∧ s'.getParent u = some (par u)) ∧
      (∀ u x, IsPrimary s u → IsPrimary s x → AncEq par u x → num u ≤ num x) ∧
      (∀ u w x, IsPrimary s u → IsPrimary s w → IsPrimary s x → AncEq par u x → num u ≤ num w → num w ≤ num x →
        AncEq par u w) := by
  obtain ⟨s', num, par, rot, h1, _, hF, hi, _, _, hS, _⟩ := search_ok h hf
  have hp : ∀ u, IsPrimary s u ↔ IsPrimary s' u := by intro u; unfold IsPrimary; rw [hS.1]
  simp only [hp]
  exact ⟨s', num, par, h1, fun u hu => ⟨getIndex_some hu (hi u hu), hF.parent u hu⟩,
    fun u x _ hx ha => ancEq_num hF ha hx, hF.consecutive⟩

/-! ### Sorting -/

theorem sort_ok {s : PGraph} {rot} (hI : PInv s rot) (hn : s.g.dfsNumbered = true) :
    ∃ inv, Numbering s.g inv ∧ s.sortVertices = some (sortedOf s inv, .ok) ∧
      PInv (sortedOf s inv) (sortRot s.g.N inv rot) ∧ Renamed s (sortedOf s inv) (fun u => (s.g.V u).index) ∧
      (sortedOf s inv).g.dfsNumbered = true ∧ (sortedOf s inv).g.sortedByDfi = !s.g.sortedByDfi := by
  obtain ⟨⟨inv, hnum⟩, hp⟩ := hI.numbered hn
  have hfl : (sortedOf s inv).g.flags = s.g.flags ^^^ 2 := rfl
  refine ⟨inv, hnum, ?_, hI.sorted hnum hp hn, renamed_sorted hI hnum hp hn, ?_, ?_⟩
  · simp only [PGraph.sortVertices, hn, if_true, sortBody_eq hI.inv hnum hp]
    rfl
  · simp only [dfsNumbered, decide_eq_true_eq] at hn ⊢
    rw [hfl, Nat.and_xor_distrib_right]
    simpa using hn
  · unfold sortedByDfi
    rw [hfl, Nat.and_xor_distrib_right]
    have h2 : s.g.flags &&& 2 = 0 ∨ s.g.flags &&& 2 = 2 := by
      have := Nat.and_two_pow s.g.flags 1
      simp only [pow_one] at this
      rw [this]
      cases s.g.flags.testBit 1 <;> simp
    rcases h2 with h | h <;> rw [h] <;> rfl

/-- C20, first part: gp_SortVertices on a numbered reachable graph renames every vertex to its number. -/
theorem sort_renames {s : PGraph} (h : PReach s) (hn : s.g.dfsNumbered = true) :
    ∃ (s' : PGraph) (σ : Nat → Nat), s.sortVertices = some (s', .ok) ∧ (∀ u, IsPrimary s u → s.g.getIndex u = some (σ u)) ∧ Renamed s s' σ ∧
      s'.g.sortedByDfi = !s.g.sortedByDfi := by
  obtain ⟨rot, hI⟩ := h.inv
  obtain ⟨inv, _, h1, _, hR, _, hs⟩ := sort_ok hI hn
  exact ⟨_, _, h1, fun u hu => getIndex_some hu rfl, hR, hs⟩

/-- `s` with every primary vertex marked visited. -/
def markAll (s : PGraph) : PGraph :=
  { s with g := { s.g with V := fun v =>
      if 1 ≤ v ∧ v ≤ s.g.N then { s.g.V v with flags := (s.g.V v).flags / 2 * 2 ||| 1 } else s.g.V v } }

theorem flags_idem (f : Nat) : (f / 2 * 2 ||| 1) / 2 * 2 ||| 1 = f / 2 * 2 ||| 1 := by
  have h1 : (f / 2 * 2 ||| 1) / 2 = f / 2 := by rw [Nat.or_div_two]; simp
  rw [h1]

theorem sortedOf_twice {s : PGraph} {rot inv} (hI : PInv s rot) (hn : Numbering s.g inv)
    (hp : ∀ u, 1 ≤ u → u ≤ s.g.N → (s.VI u).parent ≤ s.g.N) :
    sortedOf (sortedOf s inv) (fun u => (s.g.V u).index) = markAll s := by
  have hE : relabE (sortedOf s inv).g = s.g.E := by
    funext e
    by_cases he : ∃ u, e ∈ rot u
    · obtain ⟨u, he⟩ := he
      have hpr := hI.prim _ _ (hI.inv.twins u e he)
      have ho := hn.out _ hpr.1 hpr.2
      show ({ relabE s.g e with nbr := relab (sortedOf s inv).g (relab s.g (s.g.E e).nbr) } : ERec) = s.g.E e
      rw [relab_pos (by omega : (s.g.E e).nbr ≠ 0)]
      unfold relab
      rw [if_neg (by omega)]
      have : ((sortedOf s inv).g.V (s.g.V (s.g.E e).nbr).index).index = (s.g.E e).nbr := by
        show VRec.index (if _ then _ else _) = _
        rw [if_pos ⟨ho.1, ho.2.1⟩]
        exact ho.2.2
      rw [this]
      rfl
    · have hz := hI.inv.zero e fun u hu => he ⟨u, hu⟩
      have h1 : (sortedOf s inv).g.E e = {} := by
        show relabE s.g e = {}
        rw [relab_zero_rec (by rw [hz]), hz]
      rw [relab_zero_rec (by rw [h1]), h1, hz]
  have hVI : ∀ p, (if 1 ≤ p ∧ p ≤ s.g.N then
      ({ (sortedOf s inv).VI (s.g.V p).index with
        parent := relab (sortedOf s inv).g ((sortedOf s inv).VI (s.g.V p).index).parent } : VInfo) else (sortedOf s inv).VI p) = s.VI p := by
    intro p
    split
    · next hp' =>
      have ho := hn.out p hp'.1 hp'.2
      have h1 : (sortedOf s inv).VI (s.g.V p).index = { s.VI p with parent := relab s.g (s.VI p).parent } := by
        show (if _ then _ else _) = _
        rw [if_pos ⟨ho.1, ho.2.1⟩, ho.2.2]
      rw [h1]
      simp only
      have hpp := hp p hp'.1 hp'.2
      have : relab (sortedOf s inv).g (relab s.g (s.VI p).parent) = (s.VI p).parent := by
        by_cases h0 : (s.VI p).parent = 0
        · rw [h0]; rfl
        · have ho' := hn.out _ (by omega : 1 ≤ (s.VI p).parent) hpp
          rw [relab_pos h0]
          unfold relab
          rw [if_neg (by omega)]
          show VRec.index (if _ then _ else _) = _
          rw [if_pos ⟨ho'.1, ho'.2.1⟩]
          exact ho'.2.2
      rw [this]
    · next hp' =>
      show (if _ then _ else _) = _
      rw [if_neg hp']
  have hV : ∀ p, (if 1 ≤ p ∧ p ≤ s.g.N then
      ({ (sortedOf s inv).g.V (s.g.V p).index with
        index := (s.g.V p).index, flags := ((sortedOf s inv).g.V (s.g.V p).index).flags / 2 * 2 ||| 1 } : VRec) else (sortedOf s inv).g.V p) =
      (if 1 ≤ p ∧ p ≤ s.g.N then { s.g.V p with flags := (s.g.V p).flags / 2 * 2 ||| 1 } else s.g.V p) := by
    intro p
    split
    · next hp' =>
      have ho := hn.out p hp'.1 hp'.2
      have h1 : (sortedOf s inv).g.V (s.g.V p).index =
          { s.g.V p with index := p, flags := (s.g.V p).flags / 2 * 2 ||| 1 } := by
        show (if _ then _ else _) = _
        rw [if_pos ⟨ho.1, ho.2.1⟩, ho.2.2]
      rw [h1]
      simp only [flags_idem]
    · next hp' =>
      show (if _ then _ else _) = _
      rw [if_neg hp']
  have hfl : (sortedOf s inv).g.flags ^^^ 2 = s.g.flags := by
    show (s.g.flags ^^^ 2) ^^^ 2 = _
    rw [Nat.xor_assoc, Nat.xor_self, Nat.xor_zero]
  unfold sortedOf at hE hVI hV hfl ⊢
  unfold markAll
  simp only [hE, hV, hVI, hfl]

/-- C20, second part: sorting twice restores the graph: the names, the order of the lists, the vertex information and the flags. The only
difference is that all primary vertices are marked visited afterwards, which they already are after gp_CreateDFSTree
(so that in this case the graph is restored exactly). -/
theorem sort_twice_restores {s : PGraph} (h : PReach s) (hn : s.g.dfsNumbered = true) :
    ∃ s', s.sortVertices = some (s', .ok) ∧ s'.sortVertices = some (markAll s, .ok) ∧
      ((∀ u, IsPrimary s u → s.g.visited u = some true) → markAll s = s) := by
  obtain ⟨rot, hI⟩ := h.inv
  obtain ⟨inv, hnum, h1, hI', _, hn', _⟩ := sort_ok hI hn
  have hp := (hI.numbered hn).2
  refine ⟨_, h1, ?_, ?_⟩
  · have hnum' : Numbering (sortedOf s inv).g (fun u => (s.g.V u).index) := by
      constructor
      · intro d h1 h2
        have hd : d ≤ s.g.N := h2
        have hi := hnum.back d h1 hd
        have : ((sortedOf s inv).g.V d).index = inv d := by
          show VRec.index (if _ then _ else _) = _
          rw [if_pos ⟨h1, hd⟩]
        rw [this]
        exact hi
      · intro u h1 h2
        have hu : u ≤ s.g.N := h2
        have ho := hnum.out u h1 hu
        have : ((sortedOf s inv).g.V (s.g.V u).index).index = u := by
          show VRec.index (if _ then _ else _) = _
          rw [if_pos ⟨ho.1, ho.2.1⟩]
          exact ho.2.2
        exact ⟨ho.1, ho.2.1, this⟩
    simp only [PGraph.sortVertices, hn', if_true, sortBody_eq hI'.inv hnum' (hI'.numbered hn').2,
      sortedOf_twice hI hnum hp]
    rfl
  · intro hv
    unfold markAll
    congr 1
    have : (fun v => if 1 ≤ v ∧ v ≤ s.g.N then ({ s.g.V v with flags := (s.g.V v).flags / 2 * 2 ||| 1 } : VRec) else s.g.V v) = s.g.V := by
      funext v
      split
      · next hv' =>
        have h1 := hv v hv'
        have hvs : v < s.g.vSize := by unfold vSize; omega
        simp only [visited, rdV, hvs, if_true, Option.bind_eq_bind, Option.bind_some, Option.pure_def, Option.some.injEq,
          decide_eq_true_eq] at h1
        have h2 : (s.g.V v).flags / 2 * 2 ||| 1 = (s.g.V v).flags := by
          have h3 := flags_idem (s.g.V v).flags
          have h4 : ((s.g.V v).flags / 2 * 2 ||| 1) % 2 = 1 := even_or _
          have h5 : ((s.g.V v).flags / 2 * 2 ||| 1) / 2 = (s.g.V v).flags / 2 := by rw [Nat.or_div_two]; simp
          omega
        rw [h2]
      · rfl
    rw [this]

/-- gp_CreateDFSTree leaves every vertex marked visited, so after it `sort_twice_restores` gives exact equality. -/
theorem dfs_marks_all {s : PGraph} (h : PReach s) (hf : s.g.dfsNumbered = false) :
    ∃ s', s.createDFSTree = some (s', .ok) ∧ ∀ u, IsPrimary s' u → s'.g.visited u = some true := by
  obtain ⟨s', _, _, _, h1, _, _, _, _, _, _, hm, _⟩ := search_ok h hf
  refine ⟨s', h1, fun u hu => ?_⟩
  have hvs : u < s'.g.vSize := by have := hu.2; unfold vSize; omega
  simp [visited, rdV, hvs, hm u hu]

/-! ### Lowpoints -/

/-- Numbering and sorting a graph whose numbering, if any, is current. -/
theorem ensureSorted_ok {s : PGraph} (h : PReach s) (hc : Current s) :
    ∃ (s' : PGraph) (par : Nat → Nat) (rot : Nat → List Nat) (σ : Nat → Nat), s.ensureSorted = some (s', .ok) ∧
      PInv s' rot ∧ Forest s' id par ∧ s'.g.dfsNumbered = true ∧
      s'.g.sortedByDfi = true ∧ Relabelled s.g s'.g σ ∧
      (∀ u, IsPrimary s u → (s'.VI (σ u)).leastAncestor = (s.VI u).leastAncestor) ∧
      (s.g.sortedByDfi = false → ∀ u, IsPrimary s' u → (s'.g.V u).flags % 2 = 1) := by
  have sorted : ∀ {s : PGraph} {rot num par}, PInv s rot → s.g.dfsNumbered = true → s.g.sortedByDfi = false →
      Forest s num par → (∀ u, IsPrimary s u → (s.g.V u).index = num u) →
      ∃ (s' : PGraph) (par : Nat → Nat) (rot : Nat → List Nat) (σ : Nat → Nat), s.sortVertices = some (s', .ok) ∧
      PInv s' rot ∧ Forest s' id par ∧ s'.g.dfsNumbered = true ∧
      s'.g.sortedByDfi = true ∧ Relabelled s.g s'.g σ ∧
      (∀ u, IsPrimary s u → (s'.VI (σ u)).leastAncestor = (s.VI u).leastAncestor) ∧
      (∀ u, IsPrimary s' u → (s'.g.V u).flags % 2 = 1) := by
    intro s rot num par hI hn hs hF hi
    obtain ⟨inv, hnum, h1, hI', hR, hn', hs'⟩ := sort_ok hI hn
    refine ⟨_, _, _, fun u => (s.g.V u).index, h1, hI', forest_sorted hI hnum (hI.numbered hn).2 hn hF hi, hn',
      by rw [hs', hs]; rfl, ⟨hR.order, hR.edges, fun u a b => hR.range u ⟨a, b⟩,
        fun u w a b c d => hR.inj u w ⟨a, b⟩ ⟨c, d⟩, fun u a b => hR.lists u ⟨a, b⟩, hR.heads⟩, ?_, ?_⟩
    · intro u hu
      have ho := hnum.out u hu.1 hu.2
      show VInfo.leastAncestor (if _ then _ else _) = _
      rw [if_pos ⟨ho.1, ho.2.1⟩, ho.2.2]
    · intro u hu
      have hu : 1 ≤ u ∧ u ≤ s.g.N := hu
      show VRec.flags (if _ then _ else _) % 2 = 1
      rw [if_pos hu]
      exact even_or _
  have hcr : ∀ {s : PGraph}, s.g.dfsNumbered = true → s.createDFSTree = some (s, .ok) := by
    intro s hn; simp [PGraph.createDFSTree, hn]
  rcases hc with hf | ⟨hn, hs, num, par, hF, hi⟩ | ⟨hn, hs, par, hF⟩
  · obtain ⟨s1, num, par, rot, h1, hI, hF, hi, hn, hs, hS, hm, hla⟩ := search_ok h hf
    obtain ⟨s', par', rot', σ, h2, hI', hF', hn', hs', hR, hla', hm'⟩ := sorted hI hn hs hF hi
    have hN : s1.g.N = s.g.N := hS.1
    have hA : ∀ u e w, ArcTo s.g u e w → ArcTo s1.g u e w := by
      intro u e w ⟨ha, hb⟩
      refine ⟨?_, by rw [hS.2.2.2]; exact hb⟩
      unfold Graph.ArcAt at ha ⊢
      rw [hS.2.2.1]; exact ha
    refine ⟨s', par', rot', σ, ?_, hI', hF', hn', hs', ⟨hR.order.trans hN, hR.edges.trans hS.2.1,
      by simpa only [hN] using hR.range, by simpa only [hN] using hR.inj, ?_, fun u e w ha => hR.heads u e w (hA u e w ha)⟩,
      ?_, fun _ => hm'⟩
    · simp only [PGraph.ensureSorted, h1, Option.bind_eq_bind, Option.bind_some]
      simp [hs, h2]
    · intro u a b d
      rw [hR.lists u a (by omega) d, hS.2.2.1]
    · intro u hu
      rw [hla' u ⟨hu.1, by rw [hN]; exact hu.2⟩, hla]
  · obtain ⟨rot, hI⟩ := h.inv
    have hi' : ∀ u, IsPrimary s u → (s.g.V u).index = num u := by
      intro u hu
      have := hi u hu
      rw [getIndex_some hu rfl] at this
      simpa using this
    obtain ⟨s', par', rot', σ, h2, hI', hF', hn', hs', hR, hla', hm'⟩ := sorted hI hn hs hF hi'
    refine ⟨s', par', rot', σ, ?_, hI', hF', hn', hs', hR, hla', fun _ => hm'⟩
    simp only [PGraph.ensureSorted, hcr hn, Option.bind_eq_bind, Option.bind_some]
    simp [hs, h2]
  · obtain ⟨rot, hI⟩ := h.inv
    refine ⟨s, par, rot, id, ?_, hI, hF, hn, hs, ⟨rfl, rfl, fun u a b => ⟨a, b⟩, fun u w _ _ _ _ h => h, fun u _ _ b => rfl,
      fun u e w h => h⟩, fun _ _ => rfl, fun h => ?_⟩
    · simp only [PGraph.ensureSorted, hcr hn, Option.bind_eq_bind, Option.bind_some]
      simp [hs]
    · rw [hs] at h; cases h

theorem isLowpoint_st {s : PGraph} {rot D la low stk par} (h : PInv s rot) {u l : Nat} :
    IsLowpoint (st s D la low stk) par u l ↔ IsLowpoint s par u l := by
  unfold IsLowpoint
  simp only [isLeast_st h]
  rfl

theorem relabelled_st {s : PGraph} {g : Graph} {rot D la low stk σ} (h : PInv s rot) (hR : Relabelled g s.g σ) :
    Relabelled g (st s D la low stk).g σ := by
  have hI : Inv (st s D la low stk).g rot := h.inv.congr rfl rfl rfl rfl rfl (fun _ b => by cases b <;> rfl)
    (fun _ _ => rfl) (fun _ => rfl) (fun _ _ => rfl)
  refine ⟨hR.order, hR.edges, hR.range, hR.inj, ?_, fun u e w ha => (arcTo_st h).2 (hR.heads u e w ha)⟩
  intro u a b d
  have hr := hR.range u a b
  have hs : σ u < s.g.vSize := by have := hR.order; unfold vSize; omega
  rw [← hR.lists u a b d, walk_eq h.inv.links hs]
  exact walk_eq hI.links hs d

/-- C21: gp_LowpointAndLeastAncestor on a reachable graph that is not numbered, or whose numbering is
current, sorts the vertices by number (the result is the input with the vertices renamed) and stores the least ancestor and
the lowpoint of every vertex. -/
theorem lowpoints_correct {s : PGraph} (h : PReach s) (hc : Current s) :
    ∃ (s' : PGraph) (σ par : Nat → Nat), s.lowpointAndLeastAncestor = some (s', .ok) ∧ Relabelled s.g s'.g σ ∧
      Forest s' id par ∧ ∀ u, IsPrimary s' u → ∃ a l, s'.getLeastAncestor u = some a ∧ s'.getLowpoint u = some l ∧
        IsLeastAncestor s' u a ∧ IsLowpoint s' par u l := by
  obtain ⟨s1, par, rot, σ, h1, hI, hF, hn, hs, hR, _⟩ := ensureSorted_ok h hc
  obtain ⟨D, la, low, h2, h3⟩ := lowpoint_sorted hI hF hn hs
  have h0 : s1.ensureSorted = some (s1, .ok) := by
    simp [PGraph.ensureSorted, PGraph.createDFSTree, hn, hs]
  refine ⟨st s1 D la low [], σ, par, ?_, relabelled_st hI hR, forest_st hI hF, fun u hu => ?_⟩
  · rw [← h2]
    simp only [PGraph.lowpointAndLeastAncestor, h1, h0]
  · have hu : IsPrimary s1 u := hu
    have hlt : u < 1 + (st s1 D la low []).g.N := by have : u ≤ s1.g.N := hu.2; show u < 1 + s1.g.N; omega
    refine ⟨la u, low u, ?_, ?_, (isLeast_st hI).2 (h3 u hu).1, (isLowpoint_st hI).2 (h3 u hu).2⟩
    · simp only [PGraph.getLeastAncestor, PGraph.rdVI, hlt, if_true]; rfl
    · simp only [PGraph.getLowpoint, PGraph.rdVI, hlt, if_true]; rfl

/-- A graph is current right after gp_CreateDFSTree. -/
theorem current_after_search {s : PGraph} (h : PReach s) (hf : s.g.dfsNumbered = false) :
    ∃ s', s.createDFSTree = some (s', .ok) ∧ Current s' := by
  obtain ⟨s', num, par, rot, h1, _, hF, hi, hn, hs, _⟩ := search_ok h hf
  exact ⟨s', h1, .inr (.inl ⟨hn, hs, num, par, hF, fun u hu => getIndex_some hu (hi u hu)⟩)⟩

/-! ### Least ancestors -/

theorem least_keeps {s : PGraph} (h : PReach s) (hc : Current s) (hs : s.g.sortedByDfi = false) :
    ∃ (s' : PGraph) (σ : Nat → Nat) (rot : Nat → List Nat), s.leastAncestor = some (s', .ok) ∧ PInv s' rot ∧
      Relabelled s.g s'.g σ ∧ ∀ u, IsPrimary s u → s'.getLeastAncestor (σ u) = s.getLeastAncestor u := by
  obtain ⟨s1, par, rot, σ, h1, hI, hF, hn, hs1, hR, hla, hm⟩ := ensureSorted_ok h hc
  have hcap : ¬ s1.g.stackCap < s1.g.N := by
    have := hI.cap'; omega
  have hlo := leastOuter_marked (s := s1.setG s1.g.clearStack) (hm hs) (s1.g.N + 1) 1 (Nat.le_refl _)
    (by show s1.g.N + 1 ≤ s1.g.N + 1 + 1; omega)
  have hI2 : Inv (s1.setG s1.g.clearStack).g rot := hI.inv.congr rfl rfl rfl rfl rfl (fun _ b => by cases b <;> rfl)
    (fun _ _ => rfl) (fun _ => rfl) (fun _ _ => rfl)
  refine ⟨s1.setG s1.g.clearStack, σ, rot, ?_, ⟨hI2, hI.prim, hI.cap, hI.cap', hI.fresh, fun hn => ?_, hI.unsorted⟩,
    ?_, fun u hu => ?_⟩
  · simp only [PGraph.leastAncestor, h1, Option.bind_eq_bind, Option.bind_some]
    rw [if_neg (by simp), if_neg hcap]
    simp only [hlo, Option.bind_some]
    rfl
  · obtain ⟨⟨inv, a, b⟩, c⟩ := hI.numbered hn
    exact ⟨⟨inv, a, b⟩, c⟩
  · have hw : ∀ b v, (s1.setG s1.g.clearStack).g.walk b v = s1.g.walk b v := by
      intro b v
      by_cases hv : v < s1.g.vSize
      · rw [walk_eq hI.inv.links hv]; exact walk_eq hI2.links hv b
      · have hv' : ¬ v < (s1.setG s1.g.clearStack).g.vSize := hv
        simp [walk, getArc, rdV, hv, hv']
    refine ⟨hR.order, hR.edges, hR.range, hR.inj, fun u a b d => by rw [hw]; exact hR.lists u a b d, fun u e w ha => ?_⟩
    obtain ⟨x, y⟩ := hR.heads u e w ha
    refine ⟨?_, y⟩
    unfold Graph.ArcAt at x ⊢
    rw [hw]; exact x
  · have h2 := hR.range u hu.1 hu.2
    have a : σ u < 1 + (s1.setG s1.g.clearStack).g.N := by
      have := hR.order; show σ u < 1 + s1.g.N; omega
    have b : u < 1 + s.g.N := by have := hu.2; omega
    simp only [PGraph.getLeastAncestor, PGraph.rdVI, a, b, if_true]
    exact congrArg some (hla u hu)

/-- C22 is false: gp_LeastAncestor on a reachable graph that is not sorted (and whose numbering is current) stores no
least ancestor at all: every vertex still has, under its new name, the value it had before. -/
theorem least_ancestor_stores_nothing {s : PGraph} (h : PReach s) (hc : Current s) (hs : s.g.sortedByDfi = false) :
    ∃ (s' : PGraph) (σ : Nat → Nat), s.leastAncestor = some (s', .ok) ∧ Relabelled s.g s'.g σ ∧
      ∀ u, IsPrimary s u → s'.getLeastAncestor (σ u) = s.getLeastAncestor u := by
  obtain ⟨s', σ, _, h1, _, h2⟩ := least_keeps h hc hs
  exact ⟨s', σ, h1, h2⟩

theorem pinv_st {s : PGraph} {rot D la low stk} (h : PInv s rot) : PInv (st s D la low stk) rot := by
  have hI : Inv (st s D la low stk).g rot := h.inv.congr rfl rfl rfl rfl rfl (fun _ b => by cases b <;> rfl)
    (fun _ _ => rfl) (fun _ => rfl) (fun _ _ => rfl)
  refine ⟨hI, h.prim, h.cap, h.cap', h.fresh, fun hn => ?_, h.unsorted⟩
  obtain ⟨⟨inv, a, b⟩, c⟩ := h.numbered hn
  exact ⟨⟨inv, a, b⟩, c⟩

theorem sameArcs_st {s : PGraph} {rot D la low stk} (h : PInv s rot) : SameArcs s.g (st s D la low stk).g := by
  have hI : Inv (st s D la low stk).g rot := (pinv_st h).inv
  refine ⟨rfl, rfl, fun b u => ?_, fun _ => rfl⟩
  by_cases hu : u < s.g.vSize
  · rw [walk_eq h.inv.links hu]; exact walk_eq hI.links hu b
  · have hu' : ¬ u < (st s D la low stk).g.vSize := hu
    simp [walk, getArc, rdV, hu, hu']

/-- C22, the part that holds: if the vertices are sorted, the numbering is current and the caller first clears all
visited marks then gp_LeastAncestor stores the least ancestor of every vertex. Missing: without that step nothing is
stored, see `least_ancestor_stores_nothing`. -/
theorem least_ancestor_partial {s : PGraph} {par : Nat → Nat} (h : PReach s) (hn : s.g.dfsNumbered = true)
    (hs : s.g.sortedByDfi = true) (hF : Forest s id par) :
    ∃ g s', s.g.clearVisitedAll = some g ∧ (s.setG g).leastAncestor = some (s', .ok) ∧ SameArcs s.g s'.g ∧
      ∀ u, IsPrimary s u → ∃ a, s'.getLeastAncestor u = some a ∧ IsLeastAncestor s u a := by
  obtain ⟨rot, hI⟩ := h.inv
  obtain ⟨g, hg⟩ : ∃ g, s.g.clearVisitedAll = some g := ⟨_, clearVisitedAll_eq _⟩
  have hst : s.setG g = st s [] (fun v => (s.VI v).leastAncestor) (fun v => (s.VI v).lowpoint) s.g.stack := by
    rw [clearVisitedAll_eq] at hg
    cases hg
    unfold st PGraph.setG vflags
    simp
  have hI0 := pinv_st (D := []) (la := fun v => (s.VI v).leastAncestor) (low := fun v => (s.VI v).lowpoint)
    (stk := s.g.stack) hI
  obtain ⟨D, la, low, h1, h2⟩ := least_unmarked hI0 (forest_st hI hF) hn hs (by
    intro u hu
    have hu : 1 ≤ u ∧ u ≤ s.g.N := hu
    show vflags s.g.N (s.g.V u).flags u [] % 2 = 0
    unfold vflags
    rw [if_pos hu]
    simp)
  refine ⟨g, _, hg, by rw [hst]; exact h1, ?_, fun u hu => ⟨la u, ?_, (isLeast_st hI).1 (h2 u hu)⟩⟩
  · have a := sameArcs_st (D := []) (la := fun v => (s.VI v).leastAncestor) (low := fun v => (s.VI v).lowpoint)
      (stk := s.g.stack) hI
    have b := sameArcs_st (D := D) (la := la) (low := low) (stk := []) hI0
    exact ⟨b.1.trans a.1, b.2.1.trans a.2.1, fun x y => (b.2.2.1 x y).trans (a.2.2.1 x y), fun x => (b.2.2.2 x).trans (a.2.2.2 x)⟩
  · have hlt : u < 1 + s.g.N := by have := hu.2; omega
    show (if u < 1 + s.g.N then some _ else none).bind _ = _
    rw [if_pos hlt]
    rfl

/-! ### Concrete cases -/

/-- The ends of all added edges are primary vertices. -/
def primRunB (N : Nat) (ops : List Op) : Bool := ops.all fun op => match op with
  | .add u _ v _ => decide (u ≤ N ∧ v ≤ N)
  | .insert u _ _ v _ _ => decide (u ≤ N ∧ v ≤ N)
  | _ => true

theorem preach_exec {N : Nat} : ∀ (ops : List Op) {s : PGraph}, PReach s → s.g.N = N → validRunB s.g ops = true →
    primRunB N ops = true → ∀ {g outs}, exec s.g ops = some (g, outs) → PReach (s.setG g) := by
  intro ops
  induction ops with
  | nil => intro s hs _ _ _ g outs he; cases he; exact hs
  | cons op ops ih =>
    intro s hs hN hv hp g outs he
    simp only [exec, Option.bind_eq_bind] at he
    simp only [validRunB, Bool.and_eq_true] at hv
    simp only [primRunB, List.all_cons, Bool.and_eq_true] at hp
    rcases h1 : s.g.step op with _ | ⟨g1, o⟩
    · simp [h1] at he
    · rw [h1] at hv he
      simp only [Option.bind_some] at he
      rcases h2 : exec g1 ops with _ | ⟨g2, os⟩
      · simp [h2] at he
      · rw [h2] at he
        simp only [Option.bind_some, Option.pure_def, Option.some.injEq, Prod.mk.injEq] at he
        have hpr : s.g.Primary op := by
          have := hp.1
          subst hN
          cases op <;> simp_all [Graph.Primary]
        have hNN : g1.N = N := by 
          obtain ⟨rot, hI⟩ := hs.inv
          obtain ⟨_, hfr⟩ := step_frame hI.inv hI.prim (validB_sound hv.1) hpr h1
          rw [← hN]; exact hfr.N
        rw [← he.1]
        exact ih (.edit hs (validB_sound hv.1) hpr h1) hNN hv.2 hp.2 h2

/-- A graph made by edge calls alone. -/
def made (N : Nat) (ops : List Op) : PGraph :=
  { g := ((exec (Graph.init N 18) ops).map Prod.fst).getD (Graph.init N 18) }

theorem made_reach (N : Nat) (ops : List Op) (hN : 0 < N) (hv : validRunB (Graph.init N 18) ops = true)
    (hp : primRunB N ops = true) : PReach (made N ops) := by
  unfold made
  rcases h : exec (Graph.init N 18) ops with _ | ⟨g, outs⟩
  · exact .init N 18 hN rfl
  · exact preach_exec ops (s := { g := Graph.init N 18 }) (.init N 18 hN rfl) rfl hv hp h

/-- Five vertices: a triangle 1-3-4 with a doubled edge 3-4, a loop at 4, an edge 2-5. -/
def five : PGraph := made 5 [.add 1 0 4 0, .add 4 0 3 0, .add 3 0 1 0, .add 3 1 4 0, .add 4 0 4 0, .add 2 0 5 0]
theorem five_reach : PReach five := made_reach _ _ (by decide) (by decide +kernel) (by decide)

/-- `five`, numbered. -/
def fiveNum : PGraph := (five.createDFSTree.map Prod.fst).getD five
theorem fiveNum_eq : five.createDFSTree = some (fiveNum, .ok) := by
  have h : five.g.dfsNumbered = false := by decide +kernel
  obtain ⟨s', _, _, h1, _⟩ := dfs_numbers_all five_reach h
  unfold fiveNum
  rw [h1]; rfl
theorem fiveNum_reach : PReach fiveNum := .dfs five_reach fiveNum_eq

/-- Hypotheses of C18, C19, C62 and the numbers and parents found. -/
example : PReach five ∧ five.g.dfsNumbered = false ∧
    (List.range' 1 5).map fiveNum.g.getIndex = [some 1, some 4, some 3, some 2, some 5] ∧
    (List.range' 1 5).map fiveNum.getParent = [some 0, some 0, some 4, some 1, some 2] :=
  ⟨five_reach, by decide +kernel, by decide +kernel, by decide +kernel⟩

/-- Hypotheses of C20. -/
example : PReach fiveNum ∧ fiveNum.g.dfsNumbered = true ∧ (∀ u, IsPrimary fiveNum u → fiveNum.g.visited u = some true) := by
  refine ⟨fiveNum_reach, by decide +kernel, ?_⟩
  obtain ⟨s', h, hm⟩ := dfs_marks_all five_reach (by decide +kernel)
  rw [fiveNum_eq] at h
  have h := (Prod.mk.inj (Option.some.inj h)).1
  rw [h]
  exact hm

/-- Hypotheses of C21. -/
example : Current five ∧ Current fiveNum := by
  refine ⟨.inl (by decide +kernel), ?_⟩
  obtain ⟨s', h, hc⟩ := current_after_search five_reach (by decide +kernel)
  rw [fiveNum_eq] at h
  have h := (Prod.mk.inj (Option.some.inj h)).1
  rw [h]
  exact hc

/-- Outside the assumption that edges join primary vertices: with an edge from vertex 1 to the virtual vertex 3 the search
of a graph with 2 vertices writes the parent of vertex 3, outside the vertex information. -/
theorem dfs_virtual_end_undefined : ∃ g, (exec (Graph.init 2 18) [.add 1 0 3 0]).map Prod.fst = some g ∧
    ({ g := g } : PGraph).createDFSTree = none := by
  rcases h : exec (Graph.init 2 18) [.add 1 0 3 0] with _ | ⟨g, o⟩
  · exact absurd (congrArg Option.isSome h) (by decide +kernel)
  · refine ⟨g, rfl, ?_⟩
    have : (((exec (Graph.init 2 18) [.add 1 0 3 0]).bind fun p => ({ g := p.1 } : PGraph).createDFSTree).map fun _ => 0) = none := by
      decide +kernel
    rw [h] at this
    simpa using this

/-- C22 is false: on `five` gp_LeastAncestor returns OK although no vertex has its least ancestor. -/
theorem least_ancestor_false : ¬ ∀ s s' : PGraph, PReach s → s.leastAncestor = some (s', .ok) → ∀ u, IsPrimary s' u →
    ∃ a, s'.getLeastAncestor u = some a ∧ IsLeastAncestor s' u a := by
  intro hall
  obtain ⟨s', σ, rot, h1, hI, hR, h2⟩ := least_keeps five_reach (.inl (by decide +kernel)) (by decide +kernel)
  have hN : five.g.N = 5 := by decide +kernel
  have hr := hR.range 1 (by omega) (by omega)
  obtain ⟨a, ha, hb⟩ := hall five s' five_reach h1 (σ 1) ⟨hr.1, by have := hR.order; omega⟩
  rw [h2 1 ⟨by omega, by omega⟩] at ha
  have h0 : five.getLeastAncestor 1 = some 0 := by decide +kernel
  rw [h0] at ha
  cases ha
  rcases hb.1 with h | ⟨e, ha, _⟩
  · omega
  · rw [arcTo_iff hI.inv] at ha
    have := hI.prim _ _ (hI.inv.twins _ _ ha.1)
    omega

/-- `five` sorted. -/
def fiveSorted : PGraph := (fiveNum.sortVertices.map Prod.fst).getD five

theorem fiveSorted_reach : PReach fiveSorted := by
  obtain ⟨s', _, h1, _⟩ := sort_renames fiveNum_reach (by decide +kernel)
  have he : fiveSorted = s' := by unfold fiveSorted; rw [h1]; rfl
  rw [he]
  exact .sort fiveNum_reach h1

/-- Hypotheses of `least_ancestor_partial`. -/
example : PReach fiveSorted ∧ fiveSorted.g.dfsNumbered = true ∧ fiveSorted.g.sortedByDfi = true ∧
    ∃ par, Forest fiveSorted id par := by
  obtain ⟨s1, num, par, rot, h1, hI, hF, hi, hn, hs, _⟩ := search_ok five_reach (by decide +kernel)
  rw [fiveNum_eq] at h1
  have h1 := (Prod.mk.inj (Option.some.inj h1)).1
  have hr : PReach s1 := h1 ▸ fiveNum_reach
  obtain ⟨inv, hnum, h2, _, _, hn', hs'⟩ := sort_ok hI hn
  have he : fiveSorted = sortedOf s1 inv := by unfold fiveSorted; rw [h1, h2]; rfl
  rw [he]
  exact ⟨.sort hr h2, hn', by rw [hs', hs]; rfl, _, forest_sorted hI hnum (hI.numbered hn).2 hn hF hi⟩

/-- The path 2-1-3, numbered. -/
def three : PGraph := made 3 [.add 1 0 2 0, .add 1 0 3 0]
theorem three_reach : PReach three := made_reach _ _ (by decide) (by decide +kernel) (by decide)
/-- `three` numbered, after which the edge between 1 and 2 is deleted. -/
def cut : Option PGraph := three.createDFSTree.bind fun p => (p.1.g.step (.delete 2 0)).map fun q => p.1.setG q.1

/-- C61 is false: after deleting an edge from a numbered graph gp_LowpointAndLeastAncestor returns OK with a vertex whose
lowpoint has not been computed: it is 0, which is not a vertex. -/
theorem lowpoints_after_edit_false : ¬ ∀ s s' : PGraph, PReach s → s.lowpointAndLeastAncestor = some (s', .ok) →
    ∀ u, IsPrimary s' u → ∃ l, s'.getLowpoint u = some l ∧ 1 ≤ l ∧ l ≤ u := by
  intro hall
  obtain ⟨s1, num, par, rot, h1, hI, _⟩ := search_ok three_reach (by decide +kernel)
  have hv : ((three.createDFSTree.map fun p => validB p.1.g (.delete 2 0)) = some true) := by decide +kernel
  have hd : (((cut.bind fun s => s.lowpointAndLeastAncestor).map fun p => (p.2, p.1.g.N, p.1.getLowpoint 2)) =
    some (.ok, 3, some 0)) := by decide +kernel
  rw [h1] at hv
  have hv : validB s1.g (.delete 2 0) = true := by simpa using hv
  unfold cut at hd
  rw [h1] at hd
  simp only [Option.bind_some] at hd
  rcases h2 : s1.g.step (.delete 2 0) with _ | ⟨g, o⟩
  · simp [h2] at hd
  · simp only [h2, Option.map_some, Option.bind_some] at hd
    have hr : PReach (s1.setG g) := .edit (.dfs three_reach h1) (validB_sound hv) trivial h2
    rcases h3 : (s1.setG g).lowpointAndLeastAncestor with _ | ⟨s', r⟩
    · simp [h3] at hd
    · simp only [h3, Option.map_some, Option.some.injEq, Prod.mk.injEq] at hd
      obtain ⟨rfl, h4, h5⟩ := hd
      obtain ⟨l, h6, h7, _⟩ := hall _ _ hr h3 2 ⟨by omega, by omega⟩
      rw [h5] at h6
      cases h6
      omega

end Verif.Props
