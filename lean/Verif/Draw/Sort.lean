import Verif.Draw.Model
import Verif.Test.SubSort

/-
Sorting the vertices of a graph with the drawing extension: model and lemmas.
-/
namespace Verif
namespace Draw
open Graph Function DFS

/-- The relabelling of the vertices that the drawing data of `v` name, graphDrawPlanar_Extensions.c 372-376. -/
def relabelAncestor (g : Graph) (c : Ctx) (v : Nat) : Option Ctx := do
  let r ← rdDV c g v
  if r.ancestor ≠ 0 then do
    let a ← g.getIndex r.ancestor
    let b ← g.getIndex r.ancestorChild
    wrDV c g v { r with ancestor := a, ancestorChild := b }
  else some c

/-- The inner loop, graphDrawPlanar_Extensions.c 397-411; `i` is vIndex. -/
def drawCycle (v : Nat) : Nat → Nat → Graph × Ctx → Option (Graph × Ctx)
  | 0, _, gc => do if ← gc.1.visited v then return gc else none
  | fuel + 1, i, gc => do
    if ← gc.1.visited v then return gc
    else do
      let temp ← rdDV gc.2 gc.1 v
      let b ← rdDV gc.2 gc.1 i
      let c ← wrDV gc.2 gc.1 v b
      let c ← wrDV c gc.1 i temp
      let g ← gc.1.setVisited i
      let i ← g.getIndex i
      drawCycle v fuel i (g, c)

/-- One vertex of the outer loop, graphDrawPlanar_Extensions.c 385-412. -/
def drawPosition (gc : Graph × Ctx) (v : Nat) : Option (Graph × Ctx) := do
  if ← gc.1.visited v then return gc
  else do
    let i ← gc.1.getIndex v
    drawCycle v (gc.1.N + 1) i gc

/-- `_DrawPlanar_SortVertices`, graphDrawPlanar_Extensions.c 356-422, on top of `_SortVertices`; `flags` is embedFlags
(EMBEDFLAGS_DRAWPLANAR is 5, graph.h 84). -/
def sortDrawing (flags : Nat) (s : PGraph) (c : Ctx) : Option (PGraph × Ctx × Res) :=
  if flags = 5 then do
    let c ← (verts s.g).foldlM (relabelAncestor s.g) c
    let g ← s.g.clearVisitedAll
    let (g, c) ← (verts g).foldlM drawPosition (g, c)
    let (s, r) ← (s.setG g).sortVertices
    return (s, c, if r = .ok then .ok else .notok)
  else do
    let (s, r) ← s.sortVertices
    return (s, c, if r = .ok then .ok else .notok)

/-- The marks while the data are moved: positions in `done` are visited. -/
def dmarks (g : Graph) (done : List Nat) : Graph :=
  { g with V := fun p => if p ∈ done then { g.V p with flags := (g.V p).flags ||| 1 } else g.V p }

/-- The data while they are moved: positions in `done` hold their final data, position `v` those of `x`. -/
def dmid (c : Ctx) (inv : Nat → Nat) (done : List Nat) (v x : Nat) : Ctx :=
  { c with VI := fun p => if p ∈ done then c.VI (inv p) else if p = v then c.VI x else c.VI p }

theorem dmarks_index (g : Graph) (done : List Nat) {u : Nat} (hu : u < g.vSize) :
    (dmarks g done).getIndex u = some (g.V u).index := by
  have : u < (dmarks g done).vSize := hu
  simp only [getIndex, rdV, this, if_true, Option.bind_eq_bind, Option.bind_some, Option.pure_def]
  simp only [dmarks]
  split <;> rfl

theorem dmarks_visited {g : Graph} (hf : ∀ u, 1 ≤ u → u ≤ g.N → (g.V u).flags % 2 = 0) (done : List Nat) {u : Nat}
    (h1 : 1 ≤ u) (h2 : u ≤ g.N) : (dmarks g done).visited u = some (decide (u ∈ done)) := by
  have : u < (dmarks g done).vSize := by show u < g.vSize; unfold vSize; omega
  simp only [visited, rdV, this, if_true, Option.bind_eq_bind, Option.bind_some, Option.pure_def]
  simp only [dmarks]
  by_cases hm : u ∈ done
  · simp only [hm, if_true, Option.some.injEq, decide_true, decide_eq_true_eq]
    rw [Nat.or_mod_two_eq_one]; right; rfl
  · have := hf u h1 h2
    simp [hm, this]

theorem dmarks_set {g : Graph} {done : List Nat} {d : Nat} (hd : d < g.vSize) (hn : d ∉ done) :
    (dmarks g done).setVisited d = some (dmarks g (d :: done)) := by
  have h : d < (dmarks g done).vSize := hd
  simp only [setVisited, rdV, wrV, h, if_true, Option.bind_eq_bind, Option.bind_some, Option.some.injEq]
  simp only [dmarks]
  congr 1
  funext p
  by_cases hp : p = d
  · subst hp
    rw [update_self]
    simp [hn]
  · rw [update_of_ne hp]
    simp [hp]

theorem dmid_swap {c : Ctx} {inv : Nat → Nat} {done : List Nat} {v x d : Nat} (hv : v ∉ done) (hd : d ∉ done)
    (hx : inv d = x) : ({ dmid c inv done v x with
      VI := update (update (dmid c inv done v x).VI v ((dmid c inv done v x).VI d)) d ((dmid c inv done v x).VI v) } : Ctx) =
    dmid c inv (d :: done) v d := by
  simp only [dmid]
  congr 1
  funext p
  by_cases hpd : p = d
  · subst hpd
    rw [update_self]
    simp [hv, hx]
  · rw [update_of_ne hpd]
    by_cases hpv : p = v
    · subst hpv
      rw [update_self]
      have : d ≠ p := fun h => hpd h.symm
      simp [hpd, hv, hd, this]
    · rw [update_of_ne hpv]
      simp [hpd, hpv]

/-- One cycle of the permutation. -/
theorem drawCycle_eq {g : Graph} {c : Ctx} {inv : Nat → Nat} (hn : Numbering g inv)
    (hf : ∀ u, 1 ≤ u → u ≤ g.N → (g.V u).flags % 2 = 0) {v : Nat} (hv1 : 1 ≤ v) (hv2 : v ≤ g.N) :
    ∀ (fuel : Nat) (done : List Nat) (x : Nat), done.Nodup → (∀ u ∈ done, 1 ≤ u ∧ u ≤ g.N) →
      1 ≤ x → x ≤ g.N → v ∉ done → (∀ z ∈ done, inv z ∈ done ∨ inv z = v) → (x = v ∨ x ∈ done) →
      (g.V x).index ∉ done → g.N + 1 ≤ fuel + done.length →
      ∃ done', drawCycle v fuel (g.V x).index (dmarks g done, dmid c inv done v x) =
          some (dmarks g done', dmid c inv done' 0 0) ∧ done'.Nodup ∧
        (∀ u ∈ done', 1 ≤ u ∧ u ≤ g.N) ∧ (∀ u ∈ done, u ∈ done') ∧ v ∈ done' ∧ (∀ z ∈ done', inv z ∈ done') := by
  intro fuel
  induction fuel with
  | zero =>
    intro done x hnd hr _ _ hv _ _ _ hlen
    exfalso
    have := (full_order hnd hr (by omega)).1
    omega
  | succ fuel ih =>
    intro done x hnd hr hx1 hx2 hv hinv hxd hdst hlen
    obtain ⟨d1, d2, d3⟩ := hn.out x hx1 hx2
    generalize hd : (g.V x).index = d at *
    have hvN : v < 1 + g.N := by omega
    have hdN : d < 1 + g.N := by omega
    have hN : ∀ D, (dmarks g D).N = g.N := fun _ => rfl
    have hgoal : drawCycle v (fuel + 1) d (dmarks g done, dmid c inv done v x) =
        drawCycle v fuel (g.V d).index (dmarks g (d :: done), dmid c inv (d :: done) v d) := by
      rw [drawCycle]
      simp only [dmarks_visited hf done hv1 hv2, hv, decide_false, Bool.false_eq_true, if_false, Option.bind_eq_bind,
        Option.bind_some, rdDV, wrDV, hN, hvN, hdN, if_true]
      rw [dmarks_set (by unfold vSize; omega) hdst]
      simp only [Option.bind_some]
      rw [dmarks_index g _ (by unfold vSize; omega)]
      simp only [Option.bind_some]
      rw [← dmid_swap (c := c) hv hdst d3]
    rw [hgoal]
    have hnd' : (d :: done).Nodup := List.nodup_cons.2 ⟨hdst, hnd⟩
    have hr' : ∀ u ∈ d :: done, 1 ≤ u ∧ u ≤ g.N := by
      intro u hu
      rcases List.mem_cons.1 hu with rfl | hu
      · exact ⟨d1, d2⟩
      · exact hr u hu
    have hinv' : ∀ z ∈ d :: done, inv z ∈ d :: done ∨ inv z = v := by
      intro z hz
      rcases List.mem_cons.1 hz with rfl | hz
      · rw [d3]
        rcases hxd with h | h
        · exact Or.inr h
        · exact Or.inl (List.mem_cons_of_mem _ h)
      · rcases hinv z hz with h | h
        · exact Or.inl (List.mem_cons_of_mem _ h)
        · exact Or.inr h
    by_cases hdv : d = v
    · subst hdv
      refine ⟨d :: done, ?_, hnd', hr', fun u hu => List.mem_cons_of_mem _ hu, by simp, ?_⟩
      · have hvis' := dmarks_visited hf (d :: done) hv1 hv2
        rw [decide_eq_true (by simp)] at hvis'
        have hsame : dmid c inv (d :: done) d d = dmid c inv (d :: done) 0 0 := by
          simp only [dmid]
          congr 1
          funext p
          by_cases hp : p ∈ d :: done
          · rw [if_pos hp, if_pos hp]
          · rw [if_neg hp, if_neg hp, if_neg (fun h => hp (by simp [h]))]
            by_cases h0 : p = 0
            · rw [if_pos h0, h0]
            · rw [if_neg h0]
        rw [hsame]
        cases fuel with
        | zero => simp only [drawCycle, hvis', Option.bind_eq_bind, Option.bind_some, if_true, Option.pure_def]
        | succ n => simp only [drawCycle, hvis', Option.bind_eq_bind, Option.bind_some, if_true, Option.pure_def]
      · intro z hz
        rcases hinv' z hz with h | h
        · exact h
        · rw [h]; simp
    · have hv' : v ∉ d :: done := by
        rw [List.mem_cons, not_or]; exact ⟨fun h => hdv h.symm, hv⟩
      obtain ⟨b1, b2, b3⟩ := hn.out d d1 d2
      obtain ⟨done', e1, e2, e3, e4, e5, e6⟩ := ih (d :: done) d hnd' hr' d1 d2 hv' hinv' (by simp) (by
        intro hmem
        rcases List.mem_cons.1 hmem with h | h
        · -- the number of d is d: then x = d
          rw [h] at b3
          rw [b3] at d3
          rw [d3] at hdst hdv
          rcases hxd with h' | h'
          · exact hdv h'
          · exact hdst h'
        · have := hinv _ h
          rw [b3] at this
          rcases this with h' | h'
          · exact hdst h'
          · exact hdv h') (by simp only [List.length_cons]; omega)
      exact ⟨done', e1, e2, e3, fun u hu => e4 u (by simp [hu]), e5, e6⟩

theorem dmid_any (c : Ctx) (inv : Nat → Nat) (done : List Nat) (v : Nat) : dmid c inv done v v = dmid c inv done 0 0 := by
  simp only [dmid]
  congr 1
  funext p
  by_cases h1 : p = v
  · by_cases h0 : p = 0
    · rw [if_pos h1, if_pos h0, ← h1, h0]
    · rw [if_pos h1, if_neg h0, h1]
  · by_cases h0 : p = 0
    · rw [if_neg h1, if_pos h0, h0]
    · rw [if_neg h1, if_neg h0]

/-- The whole permutation. -/
theorem drawLoop_eq {g : Graph} {c : Ctx} {inv : Nat → Nat} (hn : Numbering g inv)
    (hf : ∀ u, 1 ≤ u → u ≤ g.N → (g.V u).flags % 2 = 0) :
    ∃ done, (verts g).foldlM drawPosition (g, c) = some (dmarks g done, dmid c inv done 0 0) ∧
      ∀ u, u ∈ done ↔ 1 ≤ u ∧ u ≤ g.N := by
  have h0 : (g, c) = (dmarks g [], dmid c inv [] 0 0) := by
    have h2 : (fun p => if p = 0 then c.VI 0 else c.VI p) = c.VI := by
      funext p; split
      · next h => rw [h]
      · rfl
    simp only [dmarks, dmid, List.not_mem_nil, if_false]
    rw [h2]
  have key : ∀ k, k ≤ g.N → ∃ done, ((List.range k).map (· + 1)).foldlM drawPosition (g, c) =
      some (dmarks g done, dmid c inv done 0 0) ∧ done.Nodup ∧ (∀ u ∈ done, 1 ≤ u ∧ u ≤ g.N) ∧
      (∀ u, 1 ≤ u → u ≤ k → u ∈ done) ∧ (∀ z ∈ done, inv z ∈ done) := by
    intro k
    induction k with
    | zero => intro _; exact ⟨[], by rw [← h0]; rfl, by simp, by simp, by omega, by simp⟩
    | succ k ih =>
      intro hk
      obtain ⟨done, e1, e2, e3, e4, e5⟩ := ih (by omega)
      rw [List.range_succ, List.map_append, List.foldlM_append, e1]
      simp only [Option.bind_eq_bind, Option.bind_some, List.map_cons, List.map_nil, List.foldlM_cons, List.foldlM_nil]
      unfold drawPosition
      simp only [dmarks_visited hf done (by omega : 1 ≤ k + 1) hk, Option.bind_eq_bind, Option.bind_some]
      by_cases hm : k + 1 ∈ done
      · refine ⟨done, ?_, e2, e3, ?_, e5⟩
        · simp [hm]
        · intro u h1 h2
          by_cases hu : u = k + 1
          · rw [hu]; exact hm
          · exact e4 u h1 (by omega)
      · obtain ⟨b1, b2, b3⟩ := hn.out (k + 1) (by omega) hk
        obtain ⟨done', f1, f2, f3, f4, f5, f6⟩ := drawCycle_eq (c := c) hn hf (v := k + 1) (by omega) hk (g.N + 1) done (k + 1)
          e2 e3 (by omega) hk hm (fun z hz => Or.inl (e5 z hz)) (Or.inl rfl)
          (fun h => hm (by have := e5 _ h; rwa [b3] at this)) (by omega)
        rw [dmid_any] at f1
        simp only [hm, decide_false, Bool.false_eq_true, if_false]
        rw [dmarks_index g _ (by unfold vSize; omega)]
        simp only [Option.bind_some]
        have hN : (dmarks g done).N = g.N := rfl
        rw [hN, f1]
        refine ⟨done', rfl, f2, f3, ?_, f6⟩
        intro u h1 h2
        by_cases hu : u = k + 1
        · rw [hu]; exact f5
        · exact f4 u (e4 u h1 (by omega))
  obtain ⟨done, e1, _, e3, e4, _⟩ := key g.N (Nat.le_refl _)
  exact ⟨done, e1, fun u => ⟨e3 u, fun h => e4 u h.1 h.2⟩⟩

/-- The data of a vertex with the vertices it names relabelled. -/
def movedData (σ : Nat → Nat) (r : DVert) : DVert :=
  if r.ancestor ≠ 0 then { r with ancestor := σ r.ancestor, ancestorChild := σ r.ancestorChild } else r

/-- The data with the vertices they name relabelled, not yet moved. -/
def relabelled (g : Graph) (c : Ctx) : Ctx :=
  { c with VI := fun v => if 1 ≤ v ∧ v ≤ g.N then movedData (fun u => (g.V u).index) (c.VI v) else c.VI v }

/-- Relabelling the data. -/
theorem relabelAncestors_eq {g : Graph} {c : Ctx}
    (ha : ∀ v, 1 ≤ v → v ≤ g.N → (c.VI v).ancestor ≠ 0 → (c.VI v).ancestor ≤ g.N ∧ (c.VI v).ancestorChild ≤ g.N) :
    (verts g).foldlM (relabelAncestor g) c = some (relabelled g c) := by
  have key : ∀ k, k ≤ g.N → ((List.range k).map (· + 1)).foldlM (relabelAncestor g) c =
      some { c with VI := fun v => if 1 ≤ v ∧ v ≤ k then movedData (fun u => (g.V u).index) (c.VI v) else c.VI v } := by
    intro k
    induction k with
    | zero =>
      intro _
      have : (fun v => if 1 ≤ v ∧ v ≤ 0 then movedData (fun u => (g.V u).index) (c.VI v) else c.VI v) = c.VI := by
        funext v
        rw [if_neg (by omega)]
      rw [this]; rfl
    | succ k ih =>
      intro hk
      rw [List.range_succ, List.map_append, List.foldlM_append, ih (by omega)]
      simp only [Option.bind_eq_bind, Option.bind_some, List.map_cons, List.map_nil, List.foldlM_cons, List.foldlM_nil]
      have hkN : k + 1 < 1 + g.N := by omega
      have hcur : (if 1 ≤ k + 1 ∧ k + 1 ≤ k then movedData (fun u => (g.V u).index) (c.VI (k + 1)) else c.VI (k + 1)) =
          c.VI (k + 1) := if_neg (by omega)
      unfold relabelAncestor
      simp only [rdDV, wrDV, hkN, if_true, Option.bind_eq_bind, Option.bind_some, hcur]
      by_cases h0 : (c.VI (k + 1)).ancestor ≠ 0
      · obtain ⟨a1, a2⟩ := ha (k + 1) (by omega) hk h0
        have i1 : g.getIndex (c.VI (k + 1)).ancestor = some (g.V (c.VI (k + 1)).ancestor).index := by
          unfold getIndex rdV
          rw [if_pos (by unfold vSize; omega)]; rfl
        have i2 : g.getIndex (c.VI (k + 1)).ancestorChild = some (g.V (c.VI (k + 1)).ancestorChild).index := by
          unfold getIndex rdV
          rw [if_pos (by unfold vSize; omega)]; rfl
        rw [if_pos h0, i1, i2]
        simp only [Option.bind_some, Option.pure_def]
        congr 2
        funext p
        by_cases hp : p = k + 1
        · subst hp
          rw [update_self, if_pos (by omega)]
          unfold movedData
          rw [if_pos h0]
        · rw [update_of_ne hp]
          by_cases h1 : 1 ≤ p ∧ p ≤ k
          · rw [if_pos h1, if_pos (by omega)]
          · rw [if_neg h1, if_neg (by omega)]
      · rw [if_neg h0]
        simp only [Option.bind_some, Option.pure_def]
        congr 2
        funext p
        by_cases hp : p = k + 1
        · subst hp
          rw [if_neg (by omega), if_pos (by omega)]
          unfold movedData
          rw [if_neg h0]
        · by_cases h1 : 1 ≤ p ∧ p ≤ k
          · rw [if_pos h1, if_pos (by omega)]
          · rw [if_neg h1, if_neg (by omega)]
  exact key g.N le_rfl

/-- The data after sorting. -/
def sortedData (g : Graph) (inv : Nat → Nat) (c : Ctx) : Ctx :=
  { c with VI := fun p => if 1 ≤ p ∧ p ≤ g.N then movedData (fun u => (g.V u).index) (c.VI (inv p)) else c.VI p }

/-- `_DrawPlanar_SortVertices` on a numbered graph with a computed drawing. -/
theorem sortDrawing_eq {s : PGraph} {rot inv} (h : Inv s.g rot) (hn : Numbering s.g inv) (hd : s.g.dfsNumbered = true)
    (hp : ∀ u, 1 ≤ u → u ≤ s.g.N → (s.VI u).parent ≤ s.g.N) {c : Ctx}
    (ha : ∀ v, 1 ≤ v → v ≤ s.g.N → (c.VI v).ancestor ≠ 0 → (c.VI v).ancestor ≤ s.g.N ∧ (c.VI v).ancestorChild ≤ s.g.N) :
    sortDrawing 5 s c = some (sortedOf s inv, sortedData s.g inv c, .ok) := by
  unfold sortDrawing
  rw [if_pos rfl, relabelAncestors_eq ha, clearVisitedAll_eq]
  simp only [Option.bind_eq_bind, Option.bind_some]
  generalize hg : ({ s.g with V := fun v => { s.g.V v with
    flags := if 1 ≤ v ∧ v ≤ s.g.N then (s.g.V v).flags / 2 * 2 else (s.g.V v).flags } } : Graph) = g1
  have hN : g1.N = s.g.N := by rw [← hg]
  have hn1 : Numbering g1 inv := by rw [← hg]; exact ⟨hn.out, hn.back⟩
  obtain ⟨done, e1, e2⟩ := drawLoop_eq (g := g1) (c := relabelled s.g c) hn1 (by
    intro u h1 h2
    rw [hN] at h2
    rw [← hg]
    show (if 1 ≤ u ∧ u ≤ s.g.N then (s.g.V u).flags / 2 * 2 else (s.g.V u).flags) % 2 = 0
    rw [if_pos ⟨h1, h2⟩]; omega)
  rw [e1]
  simp only [Option.bind_some]
  have hnum : (s.setG (dmarks g1 done)).g.dfsNumbered = true := by rw [← hg]; exact hd
  have hen : Ends (s.setG (dmarks g1 done)).g := by rw [← hg]; exact h.ends
  have hn2 : Numbering (s.setG (dmarks g1 done)).g inv := by
    have hi : ∀ u, ((dmarks g1 done).V u).index = (s.g.V u).index := by
      intro u
      rw [← hg]
      simp only [dmarks]
      split <;> rfl
    constructor
    · intro u h1 h2
      have h2 : u ≤ g1.N := h2
      rw [hN] at h2
      show 1 ≤ ((dmarks g1 done).V u).index ∧ ((dmarks g1 done).V u).index ≤ g1.N ∧ inv ((dmarks g1 done).V u).index = u
      rw [hi, hN]
      exact hn.out u h1 h2
    · intro d h1 h2
      have h2 : d ≤ g1.N := h2
      rw [hN] at h2
      show 1 ≤ inv d ∧ inv d ≤ g1.N ∧ ((dmarks g1 done).V (inv d)).index = d
      rw [hi, hN]
      exact hn.back d h1 h2
  have hb := sortBody_eq' hen hn2 (by
    intro u h1 h2
    have h2 : u ≤ g1.N := h2
    show (s.VI u).parent ≤ g1.N
    rw [hN] at h2 ⊢
    exact hp u h1 h2)
  have hso : sortedOf (s.setG (dmarks g1 done)) inv = sortedOf s inv := by
    rw [← hg]
    unfold sortedOf
    have hre : ∀ n, relab (dmarks { s.g with V := fun v => { s.g.V v with
        flags := if 1 ≤ v ∧ v ≤ s.g.N then (s.g.V v).flags / 2 * 2 else (s.g.V v).flags } } done) n = relab s.g n := by
      intro n
      unfold relab
      simp only [dmarks]
      split
      · rfl
      · split <;> rfl
    have hree : relabE (dmarks { s.g with V := fun v => { s.g.V v with
        flags := if 1 ≤ v ∧ v ≤ s.g.N then (s.g.V v).flags / 2 * 2 else (s.g.V v).flags } } done) = relabE s.g := by
      funext e
      unfold relabE
      rw [hre]
      rfl
    simp only [PGraph.setG, hre, hree]
    congr 1
    simp only [dmarks]
    congr 1
    funext p
    by_cases hp : 1 ≤ p ∧ p ≤ s.g.N
    · have hb := hn.back p hp.1 hp.2
      have hm : inv p ∈ done := (e2 _).2 ⟨hb.1, by rw [hN]; exact hb.2.1⟩
      rw [if_pos hp, if_pos hp, if_pos hm, if_pos ⟨hb.1, hb.2.1⟩]
      congr 1
      have h1 : ((s.g.V (inv p)).flags / 2 * 2 ||| 1) / 2 = (s.g.V (inv p)).flags / 2 := by rw [Nat.or_div_two]; simp
      rw [h1]
    · have hm : p ∉ done := fun hc => hp (by have := (e2 _).1 hc; rwa [hN] at this)
      rw [if_neg hp, if_neg hp, if_neg hm, if_neg hp]
  have hda : dmid (relabelled s.g c) inv done 0 0 = sortedData s.g inv c := by
    unfold dmid sortedData relabelled
    congr 1
    funext p
    by_cases hp : 1 ≤ p ∧ p ≤ s.g.N
    · have hb := hn.back p hp.1 hp.2
      rw [if_pos ((e2 _).2 (by rw [hN]; exact hp)), if_pos hp]
      dsimp only
      rw [if_pos ⟨hb.1, hb.2.1⟩]
    · have hm : p ∉ done := fun hc => hp (by have := (e2 _).1 hc; rwa [hN] at this)
      rw [if_neg hm, if_neg hp]
      dsimp only
      by_cases h0 : p = 0
      · rw [if_pos h0, if_neg (by omega), h0]
      · rw [if_neg h0, if_neg hp]
  unfold PGraph.sortVertices
  rw [if_pos hnum, hb, hso, hda]
  rfl

end Draw
end Verif
