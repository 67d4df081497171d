import Verif.Embed.IsoDelete
import Verif.Props.EmbedOuter

/-
What gp_Embed leaves when it reports that a graph has no embedding: C76.
-/
namespace Verif.Props
open Verif Verif.Graph Verif.DFS Verif.Embed Verif.EGraph Verif.Map Verif.Test Verif.Isolate Function

theorem no_loop {s0 : PGraph} {rot : Nat → List Nat} {B : Base} {num inv : Nat → Nat} (hI : PInv s0 rot) (S : Sorted s0 rot B num inv)
    (hs : Simple s0 rot) : NoLoop B := by
  intro e hA hh
  obtain ⟨v, he⟩ := (S.A e).1 hA
  unfold Base.own at hh
  rw [twin_twin, S.nbr _ _ he, S.nbr _ _ (hI.inv.twins v e he)] at hh
  have h1 : hdOf s0 (twin e) = v := hI.inv.owner v e he
  have h2 := hI.prim v e he
  have h3 := hI.prim _ _ (hI.inv.twins v e he)
  rw [h1] at hh
  have h4 := (S.out v h2.1 h2.2).2.2
  have h5 := (S.out (hdOf s0 e) h3.1 h3.2).2.2
  rw [hh, h5] at h4
  exact (hs v e he).1 h4

theorem gpEmbed_some {s : EGraph} {outer : Bool} {t : EGraph} (h : s.gpEmbed outer = some (t, .nonembeddable)) :
    ∃ s1, s.embed outer = some (s1, .blocked) ∧ s1.isolate outer = some (t, true) := by
  unfold gpEmbed at h
  obtain ⟨⟨s1, r⟩, h1, h⟩ := Option.bind_eq_some_iff.1 h
  dsimp only at h
  cases r with
  | ok => cases h
  | notok => cases h
  | blocked =>
    obtain ⟨⟨s2, ok⟩, h2, h⟩ := Option.bind_eq_some_iff.1 h
    dsimp only at h
    cases ok with
    | false => cases h
    | true => cases h; exact ⟨s1, h1, h2⟩

theorem left_of {s : PGraph} (hr : PReach s) (hf : s.g.dfsNumbered = false) (hs : IsSimple s.g) {outer : Bool} {t : EGraph}
    (h : (ofP s).gpEmbed outer = some (t, .nonembeddable)) :
    ∃ rot B num inv, PInv s rot ∧ Sorted s rot B num inv ∧ Left B t := by
  obtain ⟨s1, h1, h2⟩ := gpEmbed_some h
  obtain ⟨rot, B, num, inv, Pl, v, hI, S, hv, hg, hap⟩ := embed_stuck hr hf hs h1
  have hB := no_loop hI S (simple_of hs rot hI)
  obtain ⟨L, fw, P, I⟩ := Given.part hB (fun h0 => by have := (B.rng 0 h0).1; omega) hg
  refine ⟨rot, B, num, inv, hI, S, ?_⟩
  unfold isolate at h2
  rw [hg.2.1] at h2
  cases outer with
  | true => exact isolateOuter_spec hB S hI hv P I _ h2 rfl
  | false => exact isolateKuratowski_spec hB S hI hv P I _ h2 rfl

/-- C76: when gp_Embed reports NONEMBEDDABLE, the graph it leaves is consistent, numbered and sorted, and is a part of
the input graph. -/
theorem nonembeddable_part {s : PGraph} (hr : PReach s) (hf : s.g.dfsNumbered = false) (hs : IsSimple s.g) {outer : Bool} {t : EGraph}
    (h : (ofP s).gpEmbed outer = some (t, .nonembeddable)) :
    Consistent t.p ∧ t.p.g.dfsNumbered = true ∧ t.p.g.sortedByDfi = true ∧ SortedPart s t.p := by
  obtain ⟨rot, B, num, inv, hI, S, s1, L, L', J, hvi, hc⟩ := left_of hr hf hs h
  have hP := J.pinv S hI
  have hpar : ∀ u, (t.p.VI u).parent = (s1.p.VI u).parent := fun u => by rw [hvi]
  have hnum : t.p.g.dfsNumbered = true := by rw [dfsNumbered_congr hc.flags]; exact J.numbered S
  have hsrt : t.p.g.sortedByDfi = true := by
    have := J.sorted S (hI.unsorted hf)
    unfold sortedByDfi at this ⊢
    rw [hc.flags]; exact this
  have hI' : PInv t.p L' := by
    refine ⟨hc.inv, ?_, ?_, ?_, ?_, ?_, ?_⟩
    · intro u e he; rw [hc.N]; exact hP.prim u e ((hc.sub u).subset he)
    · rw [hc.arcCap, hc.stackCap]; exact hP.cap
    · rw [hc.N, hc.stackCap]; exact hP.cap'
    · intro h; rw [hnum] at h; cases h
    · intro _
      obtain ⟨⟨i, h1, h2⟩, h3⟩ := hP.numbered (J.numbered S)
      refine ⟨⟨i, ?_, ?_⟩, ?_⟩
      · intro u u1 u2; rw [hc.N] at u2 ⊢; rw [hc.index]; exact h1 u u1 u2
      · intro d d1 d2; rw [hc.N] at d2 ⊢; rw [hc.index]; exact h2 d d1 d2
      · intro u u1 u2; rw [hc.N] at u2 ⊢; rw [hpar]; exact h3 u u1 u2
    · intro h; rw [hnum] at h; cases h
  have hN : t.p.g.N = s.g.N := by rw [hc.N, J.part.N, S.N]
  have hix : ∀ u, IsPrimary t.p u → t.p.g.getIndex u = some (inv u) := by
    intro u hu
    unfold getIndex rdV
    rw [if_pos (by unfold vSize; have := hu.2; omega)]
    show some (t.p.g.V u).index = _
    rw [hc.index, J.name S hu.1 (by rw [← hN]; exact hu.2)]
  refine ⟨⟨L', hI'⟩, hnum, hsrt, hN, ?_, ?_, ?_⟩
  · have := hc.M
    rw [J.part.fix.M, S.M] at this
    exact this
  · intro a ha
    obtain ⟨o1, o2, o3⟩ := S.out a ha.1 ha.2
    have hp : IsPrimary t.p (num a) := ⟨o1, by rw [hN]; exact o2⟩
    exact ⟨num a, hp, by rw [hix _ hp, o3]⟩
  · intro u hu
    have hu2 : u ≤ s.g.N := by rw [← hN]; exact hu.2
    obtain ⟨b1, b2, b3⟩ := S.back u hu.1 hu2
    have hsub : (L' u).Subperm (rot (inv u)) := ((hc.sub u).subperm).trans (J.same_list S hI hu.1 hu2).subperm
    have hmap : ((L' u).map fun e => (s.g.E e).nbr).Subperm ((rot (inv u)).map fun e => (s.g.E e).nbr) := by
      obtain ⟨l, l1, l2⟩ := hsub
      exact ⟨_, l1.map _, l2.map _⟩
    refine ⟨inv u, (L' u).map fun e => (t.p.g.E e).nbr, (L' u).map fun e => (s.g.E e).nbr, (rot (inv u)).map fun e => (s.g.E e).nbr,
      ⟨b1, b2⟩, hix u hu, neighbors_eq hI'.inv (by unfold vSize; have := hu.2; omega), ?_,
      neighbors_eq hI.inv (by unfold vSize; omega), hmap⟩
    rw [List.mapM_map]
    refine mapM_some fun e he => ?_
    have he' : e ∈ rot (inv u) := hsub.subset he
    have hq := hI.prim _ _ (hI.inv.twins _ e he')
    obtain ⟨c1, c2, c3⟩ := S.out _ hq.1 hq.2
    show t.p.g.getIndex (t.p.g.E e).nbr = some (s.g.E e).nbr
    rw [hc.nbr u e he, J.nbr ((S.A e).2 ⟨_, he'⟩), S.nbr _ e he']
    show t.p.g.getIndex (num (s.g.E e).nbr) = _
    rw [hix _ ⟨c1, by rw [hN]; exact c2⟩, c3]

theorem subAdjacencies_of_part {s t : PGraph} (ht : Consistent t) (h0 : s.g.sortedByDfi = false) (h1 : t.g.sortedByDfi = true)
    (h : SortedPart s t) : SubAdjacencies t s := by
  obtain ⟨rt, ht⟩ := ht
  unfold SubAdjacencies
  rw [if_neg (by rw [h0, h1]; simp)]
  have hn : ∀ u x, IsName t u x ↔ t.g.getIndex u = some x := by intro u x; unfold IsName; rw [if_pos h1]
  have hn' : ∀ u x, IsName s u x ↔ u = x := by intro u x; unfold IsName; rw [if_neg (by rw [h0]; simp)]
  rintro a b ⟨u, w, hu, hw, l, hl, hm⟩
  rw [hn] at hu hw
  have hup : IsPrimary t u := by
    have := (Test.adjacent_iff ht.inv).1 ⟨l, hl, hm⟩
    obtain ⟨e, he, _⟩ := List.mem_map.1 this
    exact ht.prim u e he
  obtain ⟨a', l1, m, l2, _, g1, g2, g3, g4, g5⟩ := h.lists u hup
  rw [hu] at g1
  obtain rfl := Option.some.inj g1
  rw [hl] at g2
  obtain rfl := Option.some.inj g2
  refine ⟨a, b, (hn' _ _).2 rfl, (hn' _ _).2 rfl, l2, g4, g5.subset ?_⟩
  obtain ⟨i, hi, e1⟩ := List.getElem_of_mem hm
  have g3 := mapM_forall₂ g3
  exact ((List.forall₂_iff_get.1 g3).2 i hi (by rw [← (List.forall₂_iff_get.1 g3).1]; exact hi) |> fun hh => by
    have hh : t.g.getIndex l[i] = some _ := hh
    rw [e1, hw] at hh
    rw [Option.some.inj hh]
    exact List.getElem_mem _)

/-- C76: the adjacencies that are left are adjacencies of the input graph, by the names its vertices had. -/
theorem nonembeddable_sub {s : PGraph} (hr : PReach s) (hf : s.g.dfsNumbered = false) (hs : IsSimple s.g) {outer : Bool} {t : EGraph}
    (h : (ofP s).gpEmbed outer = some (t, .nonembeddable)) : SubAdjacencies t.p s := by
  obtain ⟨h1, _, h2, h3⟩ := nonembeddable_part hr hf hs h
  obtain ⟨rot, hI⟩ := consistent_of_reach hr
  exact subAdjacencies_of_part h1 (hI.unsorted hf) h2 h3

theorem simple_part {s t : PGraph} (ht : Consistent t) (hs : IsSimple s.g) (h : SortedPart s t) : IsSimple t.g := by
  obtain ⟨rt, ht⟩ := ht
  intro w hw
  have hv := vSize_iff.1 hw
  have hprim : ∀ e ∈ rt w, 1 ≤ w ∧ w ≤ t.g.N := fun e he => ht.prim w e he
  refine ⟨_, neighbors_eq ht.inv hv.2, ?_⟩
  by_cases hN : w ≤ t.g.N
  · obtain ⟨a, l, m, l', ha, g1, g2, g3, g4, g5⟩ := h.lists w ⟨hv.1, hN⟩
    rw [neighbors_eq ht.inv hv.2] at g2
    obtain rfl := Option.some.inj g2
    obtain ⟨k, k1, k2, k3, _⟩ := hs a ⟨ha.1, by have := ha.2; omega⟩
    rw [g4] at k1
    obtain rfl := Option.some.inj k1
    have hf := mapM_forall₂ g3
    have hm : m = (List.map (fun e => (t.g.E e).nbr) (rt w)).map fun x => (t.g.getIndex x).getD 0 := by
      clear g3 g4 g5
      revert hf
      generalize List.map (fun e => (t.g.E e).nbr) (rt w) = l
      intro hf
      induction hf with
      | nil => rfl
      | cons h1 _ ih => rw [List.map_cons, ← ih, h1]; rfl
    have hnd : m.Nodup := by
      obtain ⟨k, l1, l2⟩ := g5
      exact l1.nodup_iff.1 (k2.sublist l2)
    refine ⟨?_, ?_, ?_, fun hh => absurd hN (by omega)⟩
    · rw [hm] at hnd; exact hnd.of_map _
    · intro hc
      refine k3 (g5.subset ?_)
      rw [hm]
      exact List.mem_map.2 ⟨w, hc, by rw [g1]; rfl⟩
    · intro x hx
      obtain ⟨e, he, rfl⟩ := List.mem_map.1 hx
      exact (ht.prim _ _ (ht.inv.twins w e he)).2
  · have : rt w = [] := by
      by_contra hh
      obtain ⟨e, l, he⟩ := List.exists_cons_of_ne_nil hh
      exact hN (hprim e (by rw [he]; exact List.mem_cons_self)).2
    rw [this]
    exact ⟨List.nodup_nil, List.not_mem_nil, by simp, fun _ => rfl⟩

/-- C76: the graph left has no loops and no parallel edges. -/
theorem nonembeddable_simple {s : PGraph} (hr : PReach s) (hf : s.g.dfsNumbered = false) (hs : IsSimple s.g) {outer : Bool} {t : EGraph}
    (h : (ofP s).gpEmbed outer = some (t, .nonembeddable)) : IsSimple t.p.g := by
  obtain ⟨h1, _, _, h3⟩ := nonembeddable_part hr hf hs h
  exact simple_part h1 hs h3

/-- C76: gp_Embed(EMBEDFLAGS_PLANAR) reports NONEMBEDDABLE only if the graph is not planar. -/
theorem nonembeddable_nonplanar {s : PGraph} (hr : PReach s) (hf : s.g.dfsNumbered = false) (hs : IsSimple s.g) {t : EGraph}
    (h : (ofP s).gpEmbed false = some (t, .nonembeddable)) : ¬ IsPlanar s := by
  obtain ⟨s1, h1, -⟩ := gpEmbed_some h
  exact (embed_verdict hr hf hs h1).2 rfl

/-- C76: gp_Embed(EMBEDFLAGS_OUTERPLANAR) reports NONEMBEDDABLE only if the graph is not outerplanar. -/
theorem nonembeddable_nonouterplanar {s : PGraph} (hr : PReach s) (hf : s.g.dfsNumbered = false) (hs : IsSimple s.g) {t : EGraph}
    (h : (ofP s).gpEmbed true = some (t, .nonembeddable)) : ¬ IsOuterplanar s := by
  obtain ⟨s1, h1, -⟩ := gpEmbed_some h
  exact outer_blocked_verdict hr hf hs h1

/-- C76: gp_TestEmbedResultIntegrity finds fault with a NONEMBEDDABLE result of gp_Embed(EMBEDFLAGS_PLANAR) only if the
graph left is neither a subdivision of K5 nor one of K3,3. -/
theorem nonembeddable_test {s : PGraph} (hr : PReach s) (hf : s.g.dfsNumbered = false) (hs : IsSimple s.g) {t : EGraph}
    (h : (ofP s).gpEmbed false = some (t, .nonembeddable)) :
    (testEmbedResult 1 t.p s .nonembeddable).map (fun x => x.2.2) = some .nonembeddable ↔
      IsSubdivision t.p.g 5 edgesK5 ∨ IsSubdivision t.p.g 6 edgesK33 := by
  obtain ⟨h1, _, _, h3⟩ := nonembeddable_part hr hf hs h
  obtain ⟨s', t', r, e, _, _, _, hiff⟩ := kuratowski_test_exact h1 (consistent_of_reach hr) h3.order
  rw [e]
  show some r = some .nonembeddable ↔ _
  rw [Option.some.injEq, hiff]
  exact ⟨fun hh => hh.2, fun hh => ⟨nonembeddable_sub hr hf hs h, hh⟩⟩

/-- C76: gp_TestEmbedResultIntegrity finds fault with a NONEMBEDDABLE result of gp_Embed(EMBEDFLAGS_OUTERPLANAR) only if
the graph left is neither a subdivision of K4 nor one of K2,3. -/
theorem nonembeddable_outer_test {s : PGraph} (hr : PReach s) (hf : s.g.dfsNumbered = false) (hs : IsSimple s.g) {t : EGraph}
    (h : (ofP s).gpEmbed true = some (t, .nonembeddable)) :
    (testEmbedResult 2 t.p s .nonembeddable).map (fun x => x.2.2) = some .nonembeddable ↔
      IsSubdivision t.p.g 4 edgesK4 ∨ IsSubdivision t.p.g 5 edgesK23 := by
  obtain ⟨h1, _, _, h3⟩ := nonembeddable_part hr hf hs h
  have hl : NoLoops t.p.g := by
    rintro u ⟨l, hl, hm⟩
    obtain ⟨rt, hI⟩ := h1
    have hu : u < t.p.g.vSize ∧ 1 ≤ u := by
      have := (Test.adjacent_iff hI.inv).1 ⟨l, hl, hm⟩
      obtain ⟨e, he, _⟩ := List.mem_map.1 this
      have := hI.prim u e he
      unfold vSize; omega
    obtain ⟨l', k1, _, k2, _⟩ := simple_part ⟨rt, hI⟩ hs h3 u (vSize_iff.2 ⟨hu.2, hu.1⟩)
    rw [hl] at k1
    obtain rfl := Option.some.inj k1
    exact k2 hm
  obtain ⟨s', t', r, e, _, _, _, _, f1, f2⟩ := outerplanar_obstruction_partial h1 (consistent_of_reach hr) h3.order
  rw [e]
  show some r = some .nonembeddable ↔ _
  rw [Option.some.injEq]
  exact ⟨f1 hl, f2 (nonembeddable_sub hr hf hs h)⟩

/-- K3,3 with further vertices and edges. -/
def clutterOps : List Op := [.add 1 0 4 0, .add 7 0 8 0, .add 1 0 5 0, .add 1 0 6 0, .add 1 0 2 0, .add 2 0 4 0, .add 2 0 7 0, .add 7 0 5 0,
  .add 2 0 6 0, .add 3 0 4 0, .add 2 0 3 0, .add 8 0 3 0, .add 3 0 5 0, .add 3 0 6 0]
def clutter : PGraph := { g := ((exec (Graph.init 8 48) clutterOps).map Prod.fst).getD (Graph.init 8 48) }
theorem clutter_reach : PReach clutter := by
  unfold clutter
  rcases h : exec (Graph.init 8 48) clutterOps with _ | ⟨g, outs⟩
  · exact .init 8 48 (by decide) rfl
  · exact preach_exec clutterOps (s := { g := Graph.init 8 48 }) (.init 8 48 (by decide) rfl) rfl (by decide +kernel) (by decide) h

/-- Hypotheses of C76: some edges of the graph are deleted, and the test accepts the result. -/
example : PReach clutter ∧ clutter.g.dfsNumbered = false ∧ IsSimple clutter.g ∧
    (∀ outer, ∃ t, (ofP clutter).gpEmbed outer = some (t, .nonembeddable) ∧ t.p.g.M < clutter.g.M ∧
      (testEmbedResult (if outer then 2 else 1) t.p clutter .nonembeddable).map (fun x => x.2.2) = some .nonembeddable) := by
  refine ⟨clutter_reach, by decide +kernel, ?_, ?_⟩
  · have hN : clutter.g.N = 8 := by decide +kernel
    have hd : ∀ w, w < 17 → 1 ≤ w → ((neighbors clutter.g w).map fun l => decide (l.Nodup ∧ w ∉ l ∧ (∀ x ∈ l, x ≤ 8) ∧ (8 < w → l = []))) = some true := by
      decide +kernel
    rintro w ⟨h1, h2⟩
    rw [hN] at h2 ⊢
    have := hd w (by omega) h1
    rw [Option.map_eq_some_iff] at this
    obtain ⟨l, h3, h4⟩ := this
    exact ⟨l, h3, of_decide_eq_true h4⟩
  · have hd : ∀ outer, ((ofP clutter).gpEmbed outer).map (fun r => (r.2, decide (r.1.p.g.M < clutter.g.M),
        (testEmbedResult (if outer then 2 else 1) r.1.p clutter .nonembeddable).map (fun x => x.2.2))) = some (.nonembeddable, true, some .nonembeddable) := by
      decide +kernel
    intro outer
    have hd := hd outer
    rw [Option.map_eq_some_iff] at hd
    obtain ⟨⟨t, r⟩, h1, h2⟩ := hd
    simp only [Prod.mk.injEq, decide_eq_true_eq] at h2
    exact ⟨t, by rw [h1, h2.1], h2.2.1, h2.2.2⟩

end Verif.Props
