import Verif.Embed.Names
import Verif.Props.EmbedOuterKuratowski

/-
Properties of gp_Embed followed by gp_SortVertices: C63.
-/
namespace Verif.Props
open Verif Verif.Graph Verif.DFS Verif.Embed Verif.EGraph

theorem gpEmbed_ok {s : EGraph} {outer : Bool} {t : EGraph} (h : s.gpEmbed outer = some (t, .ok)) : s.embed outer = some (t, .ok) := by
  unfold gpEmbed at h
  obtain ⟨⟨s1, r⟩, h1, h⟩ := Option.bind_eq_some_iff.1 h
  dsimp only at h
  cases r with
  | ok => cases h; exact h1
  | notok => cases h
  | blocked =>
    obtain ⟨⟨s2, ok⟩, h2, h⟩ := Option.bind_eq_some_iff.1 h
    dsimp only at h
    cases ok <;> cases h

theorem mapM_index {t : PGraph} {l m : List Nat} (hl : ∀ x ∈ l, IsPrimary t x) (h : l.mapM t.g.getIndex = some m) :
    l.map (fun u => (t.g.V u).index) = m := by
  rw [mapM_some (k := fun u => (t.g.V u).index) fun x hx => getIndex_some (hl x hx) rfl] at h
  exact Option.some.inj h

/-- After sorting, the lists of neighbours are those of the vertex recorded, by the recorded names. -/
theorem named_lists {t t' : PGraph} {rt rt' : Nat → List Nat} {τ : Nat → Nat} (m : Moved t t' rt rt' (fun u => (t.g.V u).index) τ)
    {u a : Nat} {l k : List Nat} (hu : IsPrimary t u) (h1 : t.g.getIndex u = some a) (h2 : neighbors t.g u = some l)
    (h3 : l.mapM t.g.getIndex = some k) : neighbors t'.g a = some k := by
  rw [getIndex_some hu rfl] at h1
  obtain rfl := Option.some.inj h1
  have hl : ∀ x ∈ l, IsPrimary t x := by
    rw [neighbors_eq m.inv.inv (by unfold vSize; have := hu.2; omega)] at h2
    obtain rfl := Option.some.inj h2
    intro x hx
    obtain ⟨e, he, rfl⟩ := List.mem_map.1 hx
    exact m.head he
  rw [m.neighbors hu, h2, Option.map_some, mapM_index hl h3]

/-- C63: if gp_Embed returns OK, gp_SortVertices after it gives every vertex its input name back: the graph then has the
input's order, number of edges and neighbours of each vertex, and its lists are a plane embedding, for outerplanar
embedding one with a face for each component that meets all its vertices. -/
theorem embed_names {s : PGraph} (hr : PReach s) (hf : s.g.dfsNumbered = false) (hs : IsSimple s.g) {outer : Bool} {t : EGraph}
    (h : (ofP s).gpEmbed outer = some (t, .ok)) :
    ∃ t', t.p.sortVertices = some (t', .ok) ∧ Consistent t' ∧ t'.g.sortedByDfi = false ∧ PlaneEmbedding t' ∧ (outer = true → OneFace t') ∧
      t'.g.N = s.g.N ∧ t'.g.M = s.g.M ∧
      ∀ a, IsPrimary s a → ∃ l l', neighbors t'.g a = some l ∧ neighbors s.g a = some l' ∧ l.Perm l' := by
  have h := gpEmbed_ok h
  obtain ⟨⟨rt, hP⟩, h2, h3, h4⟩ := embed_ok_plane hr hf hs h
  obtain ⟨t', rt', τ, k1, m, k2⟩ := Moved.of_sort hP (Test.PInv.isNumbered hP h2)
  refine ⟨t', k1, ⟨_, m.inv'⟩, by rw [k2, h2]; rfl, m.plane h3, ?_, by rw [m.N, h4.order], by rw [m.M, h4.size], fun a ha => ?_⟩
  · rintro rfl
    exact m.oneFace (outer_ok_accepted hr hf hs h).2.1
  · obtain ⟨u, hu, hi⟩ := h4.names a ha
    obtain ⟨b, l, k, l', _, g1, g2, g3, g4, g5⟩ := h4.lists u hu
    rw [hi] at g1
    obtain rfl := Option.some.inj g1
    exact ⟨k, l', named_lists m hu hi g2 g3, g4, g5⟩

/-- C63: if gp_Embed reports NONEMBEDDABLE, gp_SortVertices after it gives every vertex its input name back: the
neighbours of each vertex are then neighbours in the input graph. The graph is a subdivision of some graph just if it
was one before sorting. -/
theorem nonembeddable_names {s : PGraph} (hr : PReach s) (hf : s.g.dfsNumbered = false) (hs : IsSimple s.g) {outer : Bool} {t : EGraph}
    (h : (ofP s).gpEmbed outer = some (t, .nonembeddable)) :
    ∃ t', t.p.sortVertices = some (t', .ok) ∧ Consistent t' ∧ t'.g.sortedByDfi = false ∧ t'.g.N = s.g.N ∧ t'.g.M ≤ s.g.M ∧
      (∀ a, IsPrimary s a → ∃ l l', neighbors t'.g a = some l ∧ neighbors s.g a = some l' ∧ l.Subperm l') ∧
      ∀ n E, (∀ p ∈ E, p.1 < n ∧ p.2 < n) → (IsSubdivision t'.g n E ↔ IsSubdivision t.p.g n E) := by
  obtain ⟨⟨rt, hP⟩, h1, h2, h4⟩ := nonembeddable_part hr hf hs h
  obtain ⟨t', rt', τ, k1, m, k2⟩ := Moved.of_sort hP h1
  refine ⟨t', k1, ⟨_, m.inv'⟩, by rw [k2, h2]; rfl, by rw [m.N, h4.order], by rw [m.M]; exact h4.size, fun a ha => ?_,
    fun n E hE => ⟨m.flip.subdivision hE, m.subdivision hE⟩⟩
  obtain ⟨u, hu, hi⟩ := h4.names a ha
  obtain ⟨b, l, k, l', _, g1, g2, g3, g4, g5⟩ := h4.lists u hu
  rw [hi] at g1
  obtain rfl := Option.some.inj g1
  exact ⟨k, l', named_lists m hu hi g2 g3, g4, g5⟩

/-- C63: so gp_Embed(EMBEDFLAGS_OUTERPLANAR) and gp_SortVertices leave a subdivision of K2,3 or K4 in the input graph,
by the input's names, if the result is NONEMBEDDABLE. -/
theorem nonembeddable_outer_names {s : PGraph} (hr : PReach s) (hf : s.g.dfsNumbered = false) (hs : IsSimple s.g) {t : EGraph}
    (h : (ofP s).gpEmbed true = some (t, .nonembeddable)) :
    ∃ t', t.p.sortVertices = some (t', .ok) ∧ (∀ u w, Adjacent t'.g u w → Adjacent s.g u w) ∧
      (IsSubdivision t'.g 5 edgesK23 ∨ IsSubdivision t'.g 4 edgesK4) := by
  obtain ⟨t', h1, ⟨rt', hP⟩, _, hN, _, h2, h3⟩ := nonembeddable_names hr hf hs h
  refine ⟨t', h1, fun u w hu => ?_, ?_⟩
  · obtain ⟨e, he⟩ := (adjacent_arc hP.inv).1 hu
    have hup := hP.prim u e ((arcTo_iff hP.inv).1 he).1
    rw [hN] at hup
    obtain ⟨l, l', g1, g2, g3⟩ := h2 u hup
    obtain ⟨k, hk, hm⟩ := hu
    rw [g1] at hk
    obtain rfl := Option.some.inj hk
    exact ⟨l', g2, g3.subset hm⟩
  · exact (nonembeddable_outer_subdivision hr hf hs h).imp (h3 5 edgesK23 (by decide)).2 (h3 4 edgesK4 (by decide)).2

theorem embedded_of {s : PGraph} {outer : Bool} {f : EGraph → α} {x : α} {r : Res} (h : ((ofP s).gpEmbed outer).map (fun q => (q.2, f q.1)) = some (r, x)) :
    ∃ t, (ofP s).gpEmbed outer = some (t, r) ∧ f t = x := by
  rw [Option.map_eq_some_iff] at h
  obtain ⟨⟨t, r⟩, h1, h2⟩ := h
  simp only [Prod.mk.injEq] at h2
  exact ⟨t, by rw [h1, h2.1], h2.2⟩

/-- Hypotheses of C63: K2,3 is embedded with other vertex names and keeps six edges; `clutter` is not outerplanar, and
six of its 14 edges are left, under other names. -/
example : (PReach theta ∧ theta.g.dfsNumbered = false ∧ IsSimple theta.g ∧
      ∃ t, (ofP theta).gpEmbed false = some (t, .ok) ∧ (t.p.g.M, (List.range' 1 5).map t.p.g.getIndex) = (6, [some 1, some 3, some 2, some 4, some 5])) ∧
    (PReach clutter ∧ clutter.g.dfsNumbered = false ∧ IsSimple clutter.g ∧
      ∃ t, (ofP clutter).gpEmbed true = some (t, .nonembeddable) ∧ (t.p.g.M, (List.range' 1 8).map t.p.g.getIndex) =
        (6, [some 1, some 4, some 2, some 7, some 8, some 3, some 5, some 6])) :=
  ⟨⟨theta_reach, by decide +kernel, simple_of_lists (N := 5) (by decide +kernel) (by decide +kernel), embedded_of (by decide +kernel)⟩,
    ⟨clutter_reach, by decide +kernel, simple_of_lists (N := 8) (by decide +kernel) (by decide +kernel), embedded_of (by decide +kernel)⟩⟩

end Verif.Props
