import Verif.Embed.Stages
import Verif.Props.EmbedInit
import Verif.Props.Tests

/-
Properties of the embedder: C53, C71.
-/
namespace Verif.Props
open Verif Verif.Graph Verif.DFS Verif.Embed Verif.EGraph Function

/-- C71: if gp_Embed returns OK, then the graph is consistent and sorted by vertex numbers, its adjacency lists are a plane
embedding, and it is the input graph with renamed vertices, each recording its old name. -/
theorem embed_ok_plane {s : PGraph} (hr : PReach s) (hf : s.g.dfsNumbered = false) (hs : IsSimple s.g) {outer : Bool} {t : EGraph}
    (h : (ofP s).embed outer = some (t, .ok)) :
    Consistent t.p ∧ t.p.g.sortedByDfi = true ∧ PlaneEmbedding t.p ∧ SortedGraph s t.p := by
  obtain ⟨rot, B, num, inv, σ, L, cp, hI, S, J, -⟩ := embed_sound hr hf hs h
  have hP := S.pinv hI J
  have hN : t.p.g.N = s.g.N := by rw [J.N, S.N]
  have hix : ∀ u, IsPrimary t.p u → t.p.g.getIndex u = some (inv u) := by
    rintro u ⟨h1, h2⟩
    unfold getIndex rdV
    rw [if_pos (by unfold vSize; omega)]
    show some (t.p.g.V u).index = _
    rw [S.name J h1 (hN ▸ h2)]
  refine ⟨⟨_, hP⟩, S.sorted J (hI.unsorted hf), J.plane hP, hN, by rw [J.fix.M, S.M], ?_, ?_⟩
  · rintro a ⟨h1, h2⟩
    obtain ⟨b1, b2, b3⟩ := S.out a h1 h2
    have hb : IsPrimary t.p (num a) := ⟨b1, by rw [hN]; exact b2⟩
    exact ⟨num a, hb, by rw [hix _ hb, b3]⟩
  · intro u hu
    have h2 : u ≤ s.g.N := hN ▸ hu.2
    obtain ⟨b1, b2, b3⟩ := S.back u hu.1 h2
    have e1 := neighbors_eq hP.inv (w := u) (by unfold vSize; have := hu.2; omega)
    have e2 := neighbors_eq hI.inv (w := inv u) (by unfold vSize; omega)
    have hp := S.same_list hI J hu.1 h2
    refine ⟨inv u, _, (lists L u).map (fun e => (s.g.E e).nbr), _, ⟨b1, b2⟩, hix u hu, e1, ?_, e2, hp.map _⟩
    rw [List.mapM_map]
    refine mapM_some fun e he => ?_
    have he := hp.subset he
    have hq := hI.prim _ _ (hI.inv.twins _ e he)
    obtain ⟨c1, c2, c3⟩ := S.out _ hq.1 hq.2
    show t.p.g.getIndex (t.p.g.E e).nbr = some (s.g.E e).nbr
    rw [S.head J he, hix _ ⟨c1, by rw [hN]; exact c2⟩, c3]

/-- The graph before the step for vertex `v` of the main loop of gp_Embed. -/
inductive Stage (s0 : PGraph) (outer : Bool) : Nat → EGraph → Prop
  | start {s : EGraph} : (ofP s0).embeddingInitialize = some (s, .ok) → Stage s0 outer s0.g.N s
  | step {v : Nat} {s s' : EGraph} : Stage s0 outer (v + 1) s → s.embedStep outer (v + 1) = some (s', true) → Stage s0 outer v s'

theorem stage_ready {s0 : PGraph} (hr : PReach s0) (hf : s0.g.dfsNumbered = false) (hs : IsSimple s0.g) {outer : Bool} {v : Nat} {s : EGraph}
    (h : Stage s0 outer v s) : ∃ rot B num inv Pl G fw, PInv s0 rot ∧ Sorted s0 rot B num inv ∧ v ≤ B.N ∧ Ready (B := B) Pl s G fw v ∧
      B.ap = outer := by
  induction h with
  | start h =>
    obtain ⟨s1', h', rot, B, num, inv, Pl, G, fw, hI, S, R, -, hap⟩ := init_ready hr hf (simple_of hs) outer
    rw [h] at h'
    cases h'
    exact ⟨rot, B, num, inv, Pl, G, fw, hI, S, le_of_eq S.N.symm, S.N ▸ R, hap⟩
  | step _ he ih =>
    obtain ⟨rot, B, num, inv, Pl, G, fw, hI, S, hv, R, hap⟩ := ih
    obtain ⟨s2, ok, hl, hc⟩ := embedStep_spec hap.symm R hv
    rw [he] at hl
    cases hl
    obtain ⟨-, G', fw', R', -⟩ := hc.resolve_right (by simp)
    exact ⟨rot, B, num, inv, Pl, G', fw', hI, S, by omega, R', hap⟩

/-- C53: between any two steps of the main loop of gp_Embed, the adjacency lists of the vertices and root copies
are a plane embedding of the edges embedded so far, once the lists of some vertices are read backwards; and after the
last step all edges are embedded. -/
theorem embed_stages {s0 : PGraph} (hr : PReach s0) (hf : s0.g.dfsNumbered = false) (hs : IsSimple s0.g) {outer : Bool} {v : Nat}
    {s : EGraph} (h : Stage s0 outer v s) :
    ∃ o L, PlanePart (Live s0.g) s.p.g o L ∧ (v = 0 → ∀ e, Live s0.g e → ∃ x, e ∈ L x) := by
  obtain ⟨rot, B, num, inv, Pl, G, fw, hI, S, hv, R, -⟩ := stage_ready hr hf hs h
  have hA : B.A = Live s0.g := funext fun e => propext ((S.A e).trans (live_iff hI.inv).symm)
  have r := R.st.rep
  refine ⟨G.o, lists G.L, hA ▸ planePart_of r.fix R.st.good.core r.links ?_ ?_, ?_⟩
  · intro x d hd
    exact r.owner x d.1 (mem_raw'.2 hd)
  · intro x d hd
    obtain ⟨y, hy, _⟩ := R.st.good.pair x d hd
    exact ⟨y, hy⟩
  · rintro rfl e he
    rw [← hA] at he
    obtain ⟨x, hx⟩ := R.full ⟨e, he⟩
    exact ⟨x, mem_lists.2 ⟨he, hx⟩⟩

/-- C53: after the main loop, `_OrientVerticesInEmbedding` turns the lists so that no list needs to be read backwards. -/
theorem embed_oriented {s0 : PGraph} (hr : PReach s0) (hf : s0.g.dfsNumbered = false) (hs : IsSimple s0.g) {outer : Bool}
    {s s' : EGraph} (h : Stage s0 outer 0 s) (ho : s.orientAll = some s') :
    ∃ L, PlanePart (Live s0.g) s'.p.g (fun _ => false) L ∧ ∀ e, Live s0.g e → ∃ x, e ∈ L x := by
  obtain ⟨rot, B, num, inv, Pl, G, fw, hI, S, hv, R, -⟩ := stage_ready hr hf hs h
  have hA : B.A = Live s0.g := funext fun e => propext ((S.A e).trans (live_iff hI.inv).symm)
  obtain ⟨s2, σ, L, cp, h2, J⟩ := R.oriented
  rw [ho] at h2
  cases h2
  refine ⟨lists L, hA ▸ planePart_of J.fix J.core J.links J.owner ?_, ?_⟩
  · intro x d hd
    obtain ⟨y, hy, _⟩ := J.pair x d hd
    exact ⟨y, hy⟩
  · intro e he
    rw [← hA] at he
    obtain ⟨x, hx⟩ := J.full ⟨e, he⟩
    exact ⟨x, mem_lists.2 ⟨he, hx⟩⟩

/-- C71: the parents recorded are those of a forest with one root in each component. -/
theorem embed_ok_rooted {s : PGraph} (hr : PReach s) (hf : s.g.dfsNumbered = false) (hs : IsSimple s.g) {outer : Bool} {t : EGraph}
    (h : (ofP s).embed outer = some (t, .ok)) : RootedOnce t.p := by
  obtain ⟨rot, B, num, inv, σ, L, cp, hI, S, J, -⟩ := embed_sound hr hf hs h
  exact S.rooted hI J (S.pinv hI J)

theorem mapM_forall₂ {f : Nat → Option Nat} : ∀ {l m : List Nat}, l.mapM f = some m → List.Forall₂ (fun a b => f a = some b) l m := by
  intro l
  induction l with
  | nil => intro m h; rw [List.mapM_nil] at h; obtain rfl := Option.some.inj h; exact .nil
  | cons a l ih =>
    intro m h
    rw [List.mapM_cons] at h
    obtain ⟨b, hb, h⟩ := Option.bind_eq_some_iff.1 h
    obtain ⟨m', hm, h⟩ := Option.bind_eq_some_iff.1 h
    obtain rfl := Option.some.inj h
    exact .cons hb (ih hm)

theorem sameAdjacencies_of_sorted {s t : PGraph} (hs : Consistent s) (ht : Consistent t) (h0 : s.g.sortedByDfi = false)
    (h1 : t.g.sortedByDfi = true) (h : SortedGraph s t) : SameAdjacencies t s := by
  obtain ⟨rs, hs⟩ := hs
  obtain ⟨rt, ht⟩ := ht
  unfold SameAdjacencies
  rw [if_neg (by rw [h0, h1]; simp)]
  intro a b
  have hn : ∀ u x, IsName t u x ↔ t.g.getIndex u = some x := by intro u x; unfold IsName; rw [if_pos h1]
  have hn' : ∀ u x, IsName s u x ↔ u = x := by intro u x; unfold IsName; rw [if_neg (by rw [h0]; simp)]
  constructor
  · rintro ⟨u, w, hu, hw, l, hl, hm⟩
    rw [hn] at hu hw
    have hup : IsPrimary t u := by
      have := (Test.adjacent_iff ht.inv).1 ⟨l, hl, hm⟩
      obtain ⟨e, he, _⟩ := List.mem_map.1 this
      exact ht.prim u e he
    obtain ⟨a', l1, m, l2, _, g1, g2, g3, g4, g5⟩ := h.lists u hup
    rw [hu] at g1
    obtain rfl := Option.some.inj g1
    rw [hl] at g2
    obtain rfl := Option.some.inj g2
    refine ⟨a, b, (hn' _ _).2 rfl, (hn' _ _).2 rfl, l2, g4, g5.subset ?_⟩
    obtain ⟨i, hi, e1⟩ := List.getElem_of_mem hm
    have g3 := mapM_forall₂ g3
    exact ((List.forall₂_iff_get.1 g3).2 i hi (by rw [← (List.forall₂_iff_get.1 g3).1]; exact hi) |> fun hh => by
      have hh : t.g.getIndex l[i] = some _ := hh
      rw [e1, hw] at hh
      rw [Option.some.inj hh]
      exact List.getElem_mem _)
  · rintro ⟨u, w, hu, hw, l, hl, hm⟩
    rw [hn'] at hu hw
    subst hu; subst hw
    have hup : IsPrimary s u := by
      have := (Test.adjacent_iff hs.inv).1 ⟨l, hl, hm⟩
      obtain ⟨e, he, _⟩ := List.mem_map.1 this
      exact hs.prim u e he
    obtain ⟨x, hx, hxi⟩ := h.names u hup
    obtain ⟨a', l1, m, l2, _, g1, g2, g3, g4, g5⟩ := h.lists x hx
    rw [hxi] at g1
    obtain rfl := Option.some.inj g1
    rw [hl] at g4
    obtain rfl := Option.some.inj g4
    have hm := g5.symm.subset hm
    obtain ⟨i, hi, e1⟩ := List.getElem_of_mem hm
    have g3 := mapM_forall₂ g3
    obtain ⟨f1, f2⟩ := List.forall₂_iff_get.1 g3
    have := f2 i (by rw [f1]; exact hi) hi
    have hh : t.g.getIndex (l1[i]'(by rw [f1]; exact hi)) = some m[i] := this
    rw [e1] at hh
    exact ⟨x, _, (hn _ _).2 hxi, (hn _ _).2 hh, l1, g2, List.getElem_mem _⟩

/-- C71: if gp_Embed(EMBEDFLAGS_PLANAR) returns OK, gp_TestEmbedResultIntegrity accepts the result as an embedding of
the input graph. -/
theorem embed_ok_accepted {s : PGraph} (hr : PReach s) (hf : s.g.dfsNumbered = false) (hs : IsSimple s.g) {t : EGraph}
    (h : (ofP s).embed false = some (t, .ok)) : (Test.testEmbedResult 1 t.p s .ok).map (fun x => x.2.2) = some .ok := by
  obtain ⟨h1, h2, h3, h4⟩ := embed_ok_plane hr hf hs h
  have hc := consistent_of_reach hr
  obtain ⟨s', t', r, e, _, hiff⟩ := embedding_test_exact h1 hc h4.order (embed_ok_rooted hr hf hs h) (flags := 1) (by decide)
  have hun : s.g.sortedByDfi = false := by obtain ⟨rot, hI⟩ := hc; exact hI.unsorted hf
  rw [e]
  have := hiff.2 ⟨sameAdjacencies_of_sorted hc h1 hun h2 h4, h3⟩
  rw [this]; rfl

/-- K4. -/
def four : PGraph := made 4 [.add 1 0 2 0, .add 1 0 3 0, .add 1 0 4 0, .add 2 0 3 0, .add 2 0 4 0, .add 3 0 4 0]
theorem four_reach : PReach four := made_reach _ _ (by decide) (by decide +kernel) (by decide)

/-- Hypotheses of C71 and C53. -/
example : PReach four ∧ four.g.dfsNumbered = false ∧ IsSimple four.g ∧ ∃ t, (ofP four).embed false = some (t, .ok) := by
  refine ⟨four_reach, by decide +kernel, ?_, ?_⟩
  · have hN : four.g.N = 4 := by decide +kernel
    have hd : ∀ w, w < 9 → 1 ≤ w → ((neighbors four.g w).map fun l => decide (l.Nodup ∧ w ∉ l ∧ (∀ x ∈ l, x ≤ 4) ∧ (4 < w → l = []))) = some true := by
      decide +kernel
    rintro w ⟨h1, h2⟩
    rw [hN] at h2 ⊢
    have := hd w (by omega) h1
    rw [Option.map_eq_some_iff] at this
    obtain ⟨l, h3, h4⟩ := this
    exact ⟨l, h3, of_decide_eq_true h4⟩
  · have hd : ((ofP four).embed false).map (·.2) = some .ok := by decide +kernel
    rw [Option.map_eq_some_iff] at hd
    obtain ⟨⟨t, r⟩, h1, h2⟩ := hd
    exact ⟨t, by rw [h1]; simp only at h2; rw [h2]⟩

/-- Two vertices and two edges between them. -/
def twice : PGraph := made 2 [.add 1 0 2 0, .add 1 0 2 0]
theorem twice_reach : PReach twice := made_reach _ _ (by decide) (by decide +kernel) (by decide)

/-- C71 needs simple graphs: with two edges between two vertices, gp_Embed returns OK but one of the edges is in no
adjacency list. -/
theorem embed_ok_multi_false : ¬ ∀ s : PGraph, PReach s → s.g.dfsNumbered = false → ∀ t : EGraph, (ofP s).embed false = some (t, .ok) →
    SortedGraph s t.p := by
  intro hall
  have hd : (((ofP twice).embed false).map fun r => decide (r.2 = .ok ∧ r.1.p.g.N = 2 ∧ r.1.p.g.getIndex 1 = some 1 ∧
      neighbors r.1.p.g 1 = some [2] ∧ neighbors twice.g 1 = some [2, 2])) = some true := by decide +kernel
  rw [Option.map_eq_some_iff] at hd
  obtain ⟨⟨t, r⟩, h1, h2⟩ := hd
  have h2 := of_decide_eq_true h2
  simp only at h2
  obtain ⟨rfl, hN, h2, h3, h4⟩ := h2
  obtain ⟨a, l, m, l', _, g1, g2, g3, g4, g5⟩ := (hall twice twice_reach (by decide +kernel) t h1).lists 1 ⟨le_rfl, by rw [hN]; omega⟩
  rw [h2] at g1
  obtain rfl := Option.some.inj g1
  rw [h3] at g2
  obtain rfl := Option.some.inj g2
  rw [h4] at g4
  obtain rfl := Option.some.inj g4
  have e1 := (mapM_forall₂ g3).length_eq
  have e2 := g5.length_eq
  simp only [List.length_cons, List.length_nil] at e1 e2
  omega

/-- A triangle with one edge doubled. -/
def thick : PGraph := made 3 [.add 1 0 2 0, .add 2 0 3 0, .add 1 0 3 1, .add 1 0 3 0]
theorem thick_reach : PReach thick := made_reach _ _ (by decide) (by decide +kernel) (by decide)

/-- With parallel edges gp_Embed may also report a planar graph as not embeddable: a triangle with one edge doubled. -/
theorem embed_blocked_multi_false : ¬ ∀ s p : PGraph, PReach s → s.g.dfsNumbered = false → Consistent p → p.g.N = s.g.N →
    p.g.M = s.g.M → SameAdjacencies p s → PlaneEmbedding p → ∀ t : EGraph, (ofP s).embed false ≠ some (t, .blocked) := by
  intro hall
  have hd : ((ofP thick).embed false).map (·.2) = some .blocked := by decide +kernel
  rw [Option.map_eq_some_iff] at hd
  obtain ⟨⟨t, r⟩, h1, h2⟩ := hd
  simp only at h2
  subst h2
  obtain ⟨p, num, par, rot, k1, k2, k3, _, _, _, k4, _⟩ := search_ok thick_reach (by decide +kernel)
  obtain ⟨hN, hM, _⟩ := k4
  have hR := rootedOnce_of_forest k3
  obtain ⟨s', t', r, e, _, hiff⟩ := embedding_test_exact ⟨rot, k2⟩ (consistent_of_reach thick_reach) hN hR (flags := 1) (by decide)
  have hd : (thick.createDFSTree.bind fun q => (Test.testEmbedResult 1 q.1 thick .ok).map fun x => x.2.2) = some .ok := by decide +kernel
  rw [k1, Option.bind_some, e] at hd
  obtain ⟨q1, q2⟩ := hiff.1 (Option.some.inj hd)
  exact hall thick p thick_reach (by decide +kernel) ⟨rot, k2⟩ hN hM q1 q2 t h1

end Verif.Props
