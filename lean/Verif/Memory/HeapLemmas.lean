import Verif.Memory.Heap

/-
Lemmas about the heap model: a structure owns exactly the blocks its pointer fields name.
-/
namespace Verif.Memory
open Heap

/-- The live blocks are exactly `rest`, each once, and all were handed out before. -/
structure Ok (h : Heap) (rest : List Nat) : Prop where
  perm : h.live.Perm rest
  nodup : h.live.Nodup
  bound : ∀ p ∈ h.live, p < h.next

namespace Ok

theorem of_perm {h : Heap} {a b : List Nat} (hk : Ok h a) (hp : a.Perm b) : Ok h b :=
  ⟨hk.perm.trans hp, hk.nodup, hk.bound⟩

theorem not_mem {h : Heap} {A B : List Nat} {p : Nat} (hk : Ok h (A ++ p :: B)) : p ∉ A ++ B := by
  have h1 : (p :: (A ++ B)).Nodup :=
    ((hk.perm.trans List.perm_middle).nodup_iff).1 hk.nodup
  exact (List.nodup_cons.1 h1).1

theorem alloc_fail {f s h rest} (hk : Ok h rest) (hf : f s h.calls = true) :
    ∃ h', h.alloc f s = (none, h') ∧ Ok h' rest :=
  ⟨{ h with calls := h.calls + 1 }, by rw [alloc, if_pos hf], hk.perm, hk.nodup, hk.bound⟩

theorem alloc_ok {f s h rest} (hk : Ok h rest) (hf : f s h.calls = false) :
    ∃ n h', h.alloc f s = (some n, h') ∧ Ok h' (n :: rest) := by
  refine ⟨_, _, by rw [alloc, if_neg (by simp [hf])], hk.perm.cons _, ?_, ?_⟩
  · exact List.nodup_cons.2 ⟨fun hm => Nat.lt_irrefl _ (hk.bound _ hm), hk.nodup⟩
  · intro p hp
    rcases List.mem_cons.1 hp with rfl | hp
    · exact Nat.lt_succ_self _
    · exact Nat.lt_succ_of_lt (hk.bound p hp)

theorem alloc_any (f : Faults) (s : Site) {h rest} (hk : Ok h rest) :
    (∃ h', h.alloc f s = (none, h') ∧ Ok h' rest ∧ ∃ n, f s n = true ∧ n = h.calls) ∨
    ∃ n h', h.alloc f s = (some n, h') ∧ Ok h' (n :: rest) ∧ f s h.calls = false ∧
      h'.calls = h.calls + 1 := by
  cases hf : f s h.calls
  · obtain ⟨n, h', h1, h2⟩ := hk.alloc_ok hf
    refine .inr ⟨n, h', h1, h2, rfl, ?_⟩
    rw [alloc, if_neg (by simp [hf])] at h1
    cases h1; rfl
  · obtain ⟨h', h1, h2⟩ := hk.alloc_fail hf
    exact .inl ⟨h', h1, h2, _, hf, rfl⟩

theorem free {h : Heap} {A B : List Nat} {p : Nat} (hk : Ok h (A ++ p :: B)) :
    ∃ h', h.free p = some h' ∧ Ok h' (A ++ B) ∧ h'.calls = h.calls := by
  have hp : h.live.Perm (p :: (A ++ B)) := hk.perm.trans List.perm_middle
  have hm : p ∈ h.live := hp.mem_iff.2 (by simp)
  refine ⟨{ h with live := h.live.erase p }, by rw [Heap.free, if_pos hm], ⟨?_, hk.nodup.erase _, ?_⟩, rfl⟩
  · have := hp.erase p
    rwa [List.erase_cons_head] at this
  · intro q hq
    exact hk.bound q (List.erase_subset hq)

theorem free_dead {h : Heap} {rest : List Nat} {p : Nat} (hk : Ok h rest) (hp : p ∉ rest) :
    h.free p = none := by
  rw [Heap.free, if_neg fun hm => hp (hk.perm.mem_iff.1 hm)]

theorem freeOpt {h : Heap} {A B : List Nat} {p : Option Nat} (hk : Ok h (A ++ (p.toList ++ B))) :
    ∃ h', h.freeOpt p = some h' ∧ Ok h' (A ++ B) ∧ h'.calls = h.calls := by
  cases p with
  | none => exact ⟨h, rfl, hk, rfl⟩
  | some p => exact hk.free

end Ok

/-- The blocks of a two-block object, newest first. -/
def pairList : Option (Nat × Nat) → List Nat
  | none => []
  | some (r, s) => [s, r]

namespace Ok

theorem freePair {h : Heap} {A B : List Nat} {p : Option (Nat × Nat)}
    (hk : Ok h (A ++ (pairList p ++ B))) :
    ∃ h', h.freePair p = some h' ∧ Ok h' (A ++ B) ∧ h'.calls = h.calls := by
  rcases p with _ | ⟨r, s⟩
  · exact ⟨h, rfl, hk, rfl⟩
  · obtain ⟨h1, e1, hk1, c1⟩ := Ok.free (A := A) (B := r :: B) (p := s) hk
    obtain ⟨h2, e2, hk2, c2⟩ := hk1.free
    exact ⟨h2, by simp [Heap.freePair, e1, e2], hk2, c2.trans c1⟩

theorem newPair (f : Faults) (a b : Site) {h : Heap} {rest} (hk : Ok h rest) :
    ∃ p h', h.newPair f a b = some (p, h') ∧ Ok h' (pairList p ++ rest) ∧
      (p = none → ∃ s n, (s = a ∨ s = b) ∧ f s n = true) := by
  rcases hk.alloc_any f a with ⟨h1, e1, hk1, n, hn, hc⟩ | ⟨r, h1, e1, hk1, -, -⟩
  · exact ⟨none, h1, by simp [Heap.newPair, e1], hk1, fun _ => ⟨a, n, .inl rfl, hn⟩⟩
  · rcases hk1.alloc_any f b with ⟨h2, e2, hk2, n, hn, hc⟩ | ⟨s, h2, e2, hk2, -, -⟩
    · obtain ⟨h3, e3, hk3, -⟩ := Ok.free (A := []) hk2
      exact ⟨none, h3, by simp [Heap.newPair, e1, e2, e3], hk3, fun _ => ⟨b, n, .inr rfl, hn⟩⟩
    · exact ⟨some (r, s), h2, by simp [Heap.newPair, e1, e2], hk2, by simp⟩

end Ok

/-- The blocks named by the pointer fields, newest first, without the structure itself. -/
def ptrs (g : GraphRec) : List Nat :=
  pairList g.hls ++ (g.extFace.toList ++ (pairList g.stk ++ (pairList g.dfs ++ (pairList g.brl ++
    (g.edges.toList ++ (g.vertexInfo.toList ++ g.vertices.toList))))))

theorem clear_ok {h : Heap} {g : GraphRec} {base : List Nat} (hk : Ok h (ptrs g ++ base)) :
    ∃ h', clear h g = some (h', { self := g.self, vertexInfo := g.vertexInfo }) ∧
      Ok h' base := by
  obtain ⟨self, v, vi, e, b, d, s, x, l, N, c, sc⟩ := g
  simp only [ptrs] at hk
  obtain ⟨h1, e1, hk, -⟩ := Ok.freeOpt (p := v) (B := base)
    (A := pairList l ++ (x.toList ++ (pairList s ++ (pairList d ++ (pairList b ++
      (e.toList ++ vi.toList)))))) (by simpa only [List.append_assoc] using hk)
  obtain ⟨h2, e2, hk, -⟩ := Ok.freeOpt (p := vi) (B := base)
    (A := pairList l ++ (x.toList ++ (pairList s ++ (pairList d ++ (pairList b ++ e.toList)))))
    (by simpa only [List.append_assoc] using hk)
  obtain ⟨h3, e3, hk, -⟩ := Ok.freeOpt (p := e) (B := base)
    (A := pairList l ++ (x.toList ++ (pairList s ++ (pairList d ++ pairList b))))
    (by simpa only [List.append_assoc] using hk)
  obtain ⟨h4, e4, hk, -⟩ := Ok.freePair (p := b) (B := base)
    (A := pairList l ++ (x.toList ++ (pairList s ++ pairList d)))
    (by simpa only [List.append_assoc] using hk)
  obtain ⟨h5, e5, hk, -⟩ := Ok.freePair (p := d) (B := base)
    (A := pairList l ++ (x.toList ++ pairList s))
    (by simpa only [List.append_assoc] using hk)
  obtain ⟨h6, e6, hk, -⟩ := Ok.freePair (p := s) (B := base)
    (A := pairList l ++ x.toList) (by simpa only [List.append_assoc] using hk)
  obtain ⟨h7, e7, hk, -⟩ := Ok.freeOpt (p := x) (B := base)
    (A := pairList l) (by simpa only [List.append_assoc] using hk)
  obtain ⟨h8, e8, hk, -⟩ := Ok.freePair (A := []) (p := l) (B := base) hk
  exact ⟨h8, by simp [clear, e1, e2, e3, e4, e5, e6, e7, e8], hk⟩

/-- The sites of `_InitGraph` whose failure comes after `VI` has been allocated. -/
def lateSites : List Site :=
  [.edges, .brlRec, .brlArr, .dfsRec, .dfsArr, .stkRec, .stkArr, .extFace, .hlsRec, .hlsArr]

/-- All pointer fields are set. -/
structure Full (g : GraphRec) : Prop where
  stk : g.stk ≠ none
  hls : g.hls ≠ none
  N : g.N ≠ 0

/-- The allocation chain from a structure without blocks of its own. If it fails, either V or VI
is the pointer that is NULL, or `VI` is set and a later site fails. -/
theorem initChain_ok (f : Faults) {h : Heap} {g : GraphRec} {base : List Nat} (hk : Ok h base)
    (hv : g.vertices = none) (he : g.edges = none) (hb : g.brl = none)
    (hd : g.dfs = none) (hs : g.stk = none) (hx : g.extFace = none) (hl : g.hls = none)
    (hi : g.vertexInfo = none ∨ ∀ n, f .vertices n = false) (hN : g.N ≠ 0) :
    ∃ ok h' g', initChain f h g = some (ok, h', g') ∧ Ok h' (ptrs g' ++ base) ∧
      g'.self = g.self ∧ (ok = true → Full g' ∧ g'.N = g.N) ∧
      (ok = false → g'.vertexInfo = none ∨ ∃ s ∈ lateSites, ∃ n, f s n = true) ∧
      (g'.vertexInfo = none ↔ f .vertices h.calls = true ∨ f .vertexInfo (h.calls + 1) = true) ∧
      (g'.vertexInfo = none → ok = false) := by
  obtain ⟨self, v, vi, e, b, d, s, x, l, N, c, sc⟩ := g
  subst hv he hb hd hs hx hl
  unfold initChain
  rcases hk.alloc_any f .vertices with ⟨h1, e1, hk1, n, hn, hc⟩ | ⟨p1, h1, e1, hk1, hf1, hc1⟩
  · have hi : vi = none := hi.resolve_right fun h => by simp [h n] at hn
    subst hi
    exact ⟨false, h1, { self := self, N := N, arcCap := c, stackCap := sc }, by simp [e1], by simpa [ptrs, pairList] using hk1, rfl, by simp, fun _ => .inl rfl, by
      subst hc; simp [hn], fun _ => rfl⟩
  simp only [e1]
  rcases hk1.alloc_any f .vertexInfo with ⟨h2, e2, hk2, n, hn, hc⟩ | ⟨p2, h2, e2, hk2, hf2, hc2⟩
  · exact ⟨false, h2, { self := self, N := N, arcCap := c, stackCap := sc, vertices := some p1 }, by simp [e2], by simpa [ptrs, pairList] using hk2, rfl, by simp, fun _ => .inl rfl, by
      rw [hc1] at hc; subst hc; simp [hn], fun _ => rfl⟩
  simp only [e2]
  rw [hc1] at hf2
  rcases hk2.alloc_any f .edges with ⟨h3, e3, hk3, n, hn, hc⟩ | ⟨p3, h3, e3, hk3, hf3, hc3⟩
  · exact ⟨false, h3, { self := self, N := N, arcCap := c, stackCap := sc, vertices := some p1, vertexInfo := some p2 }, by simp [e3], by simpa [ptrs, pairList] using hk3, rfl, by simp,
      fun _ => .inr ⟨.edges, by simp [lateSites], n, hn⟩, by simp [hf1, hf2], by simp⟩
  simp only [e3]
  obtain ⟨p4, h4, e4, hk4, hp4⟩ := hk3.newPair f .brlRec .brlArr
  rcases p4 with _ | p4
  · obtain ⟨s, n, hs, hn⟩ := hp4 rfl
    exact ⟨false, h4, { self := self, N := N, arcCap := c, stackCap := sc, vertices := some p1, vertexInfo := some p2, edges := some p3 }, by simp [e4], by simpa [ptrs, pairList] using hk4, rfl, by simp,
      fun _ => .inr ⟨s, by rcases hs with rfl | rfl <;> simp [lateSites], n, hn⟩, by simp [hf1, hf2], by simp⟩
  obtain ⟨p5, h5, e5, hk5, hp5⟩ := hk4.newPair f .dfsRec .dfsArr
  rcases p5 with _ | p5
  · obtain ⟨s, n, hs, hn⟩ := hp5 rfl
    exact ⟨false, h5, { self := self, N := N, arcCap := c, stackCap := sc, vertices := some p1, vertexInfo := some p2, edges := some p3, brl := some p4 }, by simp [e4, e5], by simpa [ptrs, pairList] using hk5, rfl, by simp,
      fun _ => .inr ⟨s, by rcases hs with rfl | rfl <;> simp [lateSites], n, hn⟩, by simp [hf1, hf2], by simp⟩
  obtain ⟨p6, h6, e6, hk6, hp6⟩ := hk5.newPair f .stkRec .stkArr
  rcases p6 with _ | p6
  · obtain ⟨s, n, hs, hn⟩ := hp6 rfl
    exact ⟨false, h6, { self := self, N := N, arcCap := c, stackCap := sc, vertices := some p1, vertexInfo := some p2, edges := some p3, brl := some p4, dfs := some p5 }, by simp [e4, e5, e6], by simpa [ptrs, pairList] using hk6, rfl, by simp,
      fun _ => .inr ⟨s, by rcases hs with rfl | rfl <;> simp [lateSites], n, hn⟩, by simp [hf1, hf2], by simp⟩
  rcases hk6.alloc_any f .extFace with ⟨h7, e7, hk7, n, hn, hc⟩ | ⟨p7, h7, e7, hk7, hf7, hc7⟩
  · exact ⟨false, h7, { self := self, N := N, arcCap := c, stackCap := sc, vertices := some p1, vertexInfo := some p2, edges := some p3, brl := some p4, dfs := some p5, stk := some p6 }, by simp [e4, e5, e6, e7], by simpa [ptrs, pairList] using hk7, rfl, by simp,
      fun _ => .inr ⟨.extFace, by simp [lateSites], n, hn⟩, by simp [hf1, hf2], by simp⟩
  obtain ⟨p8, h8, e8, hk8, hp8⟩ := hk7.newPair f .hlsRec .hlsArr
  rcases p8 with _ | p8
  · obtain ⟨s, n, hs, hn⟩ := hp8 rfl
    exact ⟨false, h8, { self := self, N := N, arcCap := c, stackCap := sc, vertices := some p1, vertexInfo := some p2, edges := some p3, brl := some p4, dfs := some p5, stk := some p6, extFace := some p7 }, by simp [e4, e5, e6, e7, e8], by simpa [ptrs, pairList] using hk8, rfl, by simp,
      fun _ => .inr ⟨s, by rcases hs with rfl | rfl <;> simp [lateSites], n, hn⟩, by simp [hf1, hf2], by simp⟩
  refine ⟨true, h8, { self := self, N := N, arcCap := c, stackCap := sc, vertices := some p1, vertexInfo := some p2, edges := some p3, brl := some p4, dfs := some p5, stk := some p6, extFace := some p7, hls := some p8 },
    by simp [e4, e5, e6, e7, e8], ?_, rfl,
    fun _ => ⟨⟨by simp, by simp, hN⟩, rfl⟩, by simp, by simp [hf1, hf2], by simp⟩
  simpa [ptrs, pairList] using hk8

/-- A structure between calls: empty, or fully allocated. -/
def Good (g : GraphRec) : Prop := g = { self := g.self, arcCap := g.arcCap } ∨ Full g

/-- Faults only where the code recovers. -/
def Benign (f : Faults) : Prop := ∀ s n, f s n = true → s ∉ lateSites ∧ s ≠ .edgesRealloc

theorem gpInit_ok {f : Faults} (hf : Benign f) {h : Heap} {g : GraphRec} {base : List Nat}
    (hk : Ok h (ptrs g ++ base)) (hg : Good g) (N : Nat) :
    ∃ h' g' r, gpInit f h g N = some (h', g', r) ∧ Ok h' (ptrs g' ++ base) ∧ Good g' ∧
      g'.self = g.self := by
  unfold gpInit
  by_cases hN : N = 0
  · exact ⟨h, g, .notok, by simp [hN], hk, hg, rfl⟩
  rw [if_neg hN]
  rcases hg with he | hF
  · rw [he] at hk ⊢
    generalize g.self = p at *
    generalize g.arcCap = c at *
    obtain ⟨ok, h', g', h1, hk1, hs, hfull, hlate, -⟩ := initChain_ok f (h := h) (base := base)
      (g := initSizes { self := p, arcCap := c } N) hk rfl rfl rfl rfl rfl rfl rfl (.inl rfl) hN
    cases ok with
    | true =>
      exact ⟨h', g', .ok, by simp [h1], hk1, .inr (hfull rfl).1, hs⟩
    | false =>
      obtain ⟨h2, e2, hk2⟩ := clear_ok hk1
      have hvi : g'.vertexInfo = none := by
        refine (hlate rfl).resolve_right ?_
        rintro ⟨s, hs, n, hn⟩
        exact (hf s n hn).1 hs
      rw [hvi, hs] at e2
      exact ⟨h2, { self := p }, .notok, by simp [h1, e2]; rfl, hk2, .inl rfl, rfl⟩
  · exact ⟨h, g, .notok, by simp [hF.N], hk, .inr hF, rfl⟩

theorem growStk_ok (f : Faults) {h : Heap} {g : GraphRec} {base : List Nat}
    (hk : Ok h (ptrs g ++ base)) (hg : Full g) (req : Nat) :
    ∃ ok h' g', growStk f h g req = some (ok, h', g') ∧ Ok h' (ptrs g' ++ base) ∧ Full g' ∧
      g'.self = g.self := by
  unfold growStk
  by_cases hc : g.stackCap < 2 * req
  · obtain ⟨p, h1, e1, hk1, -⟩ := hk.newPair f .newStkRec .newStkArr
    rcases p with _ | p
    · exact ⟨false, h1, g, by simp [hc, e1], hk1, hg, rfl⟩
    · obtain ⟨h2, e2, hk2, -⟩ := Ok.freePair (h := h1) (p := g.stk)
        (A := pairList (some p) ++ (pairList g.hls ++ g.extFace.toList))
        (B := pairList g.dfs ++ (pairList g.brl ++
          (g.edges.toList ++ (g.vertexInfo.toList ++ g.vertices.toList))) ++ base)
        (by simpa [ptrs] using hk1)
      refine ⟨true, h2, { g with stk := some p, stackCap := max (2 * req) (6 * g.N) },
        by simp [hc, e1, hg.stk, e2], hk2.of_perm ?_, ⟨by simp, hg.hls, hg.N⟩, rfl⟩
      simp only [ptrs, List.append_assoc]
      rw [← List.append_assoc (pairList g.hls), ← List.append_assoc (pairList g.hls)]
      exact List.perm_append_comm_assoc ..
  · exact ⟨true, h, g, by simp [hc], hk, hg, rfl⟩

theorem growHls_ok (f : Faults) {h : Heap} {g : GraphRec} {base : List Nat}
    (hk : Ok h (ptrs g ++ base)) (hg : Full g) :
    ∃ ok h' g', growHls f h g = some (ok, h', g') ∧ Ok h' (ptrs g' ++ base) ∧ Full g' ∧
      g'.self = g.self := by
  unfold growHls
  obtain ⟨p, h1, e1, hk1, -⟩ := hk.newPair f .newHlsRec .newHlsArr
  rcases p with _ | p
  · exact ⟨false, h1, g, by simp [e1], hk1, hg, rfl⟩
  · obtain ⟨h2, e2, hk2, -⟩ := Ok.freePair (h := h1) (p := g.hls)
      (A := pairList (some p))
      (B := g.extFace.toList ++ (pairList g.stk ++ (pairList g.dfs ++ (pairList g.brl ++
        (g.edges.toList ++ (g.vertexInfo.toList ++ g.vertices.toList))))) ++ base)
      (by simpa [ptrs] using hk1)
    refine ⟨true, h2, { g with hls := some p }, by simp [e1, hg.hls, e2], ?_,
      ⟨hg.stk, by simp, hg.N⟩, rfl⟩
    simpa [ptrs] using hk2

theorem realloc_ok {f : Faults} {h : Heap} {A B : List Nat} {p : Option Nat}
    (hk : Ok h (A ++ (p.toList ++ B))) (hf : ∀ n, f .edgesRealloc n = false) :
    ∃ q h', h.realloc f .edgesRealloc p = some (some q, h') ∧ Ok h' (A ++ (q :: B)) := by
  obtain ⟨n, h1, e1, hk1⟩ := hk.alloc_ok (s := .edgesRealloc) (hf _)
  obtain ⟨h2, e2, hk2, -⟩ := Ok.freeOpt (h := h1) (p := p) (A := n :: A) (B := B) hk1
  refine ⟨n, h2, by simp [Heap.realloc, e1, e2], hk2.of_perm ?_⟩
  exact (List.perm_middle).symm

theorem gpEnsure_ok {f : Faults} (hf : Benign f) {h : Heap} {g : GraphRec} {base : List Nat}
    (hk : Ok h (ptrs g ++ base)) (hg : Good g) (req : Int) :
    ∃ h' g' r, gpEnsure f h g req = some (h', g', r) ∧ Ok h' (ptrs g' ++ base) ∧ Good g' ∧
      g'.self = g.self := by
  unfold gpEnsure
  by_cases h1 : req ≤ 0
  · exact ⟨h, g, .notok, by simp [h1], hk, hg, rfl⟩
  rw [if_neg h1]
  by_cases h2 : req % 2 ≠ 0
  · exact ⟨h, g, .notok, by simp [h2], hk, hg, rfl⟩
  rw [if_neg h2]
  by_cases h3 : (g.arcCap : Int) ≥ req
  · exact ⟨h, g, .ok, by simp [h3], hk, hg, rfl⟩
  rw [if_neg h3]
  by_cases h4 : g.N = 0
  · refine ⟨h, { g with arcCap := req.toNat }, .ok, by simp [h4], hk, ?_, rfl⟩
    rcases hg with hg | hg
    · left; rw [hg]
    · exact absurd h4 hg.N
  rw [if_neg h4]
  have hF : Full g := by
    rcases hg with hg | hg
    · rw [hg] at h4; simp at h4
    · exact hg
  obtain ⟨ok, h1, g1, e1, hk1, hF1, hs1⟩ := growStk_ok f hk hF req.toNat
  cases ok with
  | false => exact ⟨h1, g1, .notok, by simp [e1], hk1, .inr hF1, hs1⟩
  | true =>
    obtain ⟨ok, h2, g2, e2, hk2, hF2, hs2⟩ := growHls_ok f hk1 hF1
    cases ok with
    | false => exact ⟨h2, g2, .notok, by simp [e1, e2], hk2, .inr hF2, hs2.trans hs1⟩
    | true =>
      have hr : ∀ n, f .edgesRealloc n = false := by
        intro n
        cases hn : f .edgesRealloc n
        · rfl
        · exact absurd rfl (hf _ _ hn).2
      obtain ⟨q, h3, e3, hk3⟩ := realloc_ok (h := h2) (p := g2.edges)
        (A := pairList g2.hls ++ (g2.extFace.toList ++ (pairList g2.stk ++ (pairList g2.dfs ++
          pairList g2.brl))))
        (B := g2.vertexInfo.toList ++ g2.vertices.toList ++ base)
        (by simpa [ptrs] using hk2) hr
      refine ⟨h3, { g2 with edges := some q, arcCap := req.toNat }, .ok, by simp [e1, e2, e3],
        by simpa [ptrs] using hk3, .inr ⟨hF2.stk, hF2.hls, hF2.N⟩, hs2.trans hs1⟩

theorem calls_ok {f : Faults} (hf : Benign f) {base : List Nat} (cs : List Call) :
    ∀ {h : Heap} {g : GraphRec}, Ok h (ptrs g ++ base) → Good g →
      ∃ h' g' rs, calls f h g cs = some (h', g', rs) ∧ Ok h' (ptrs g' ++ base) ∧ Good g' ∧
        g'.self = g.self := by
  induction cs with
  | nil => intro h g hk hg; exact ⟨h, g, [], rfl, hk, hg, rfl⟩
  | cons c cs ih =>
    intro h g hk hg
    have h1 : ∃ h' g' r, call f h g c = some (h', g', r) ∧ Ok h' (ptrs g' ++ base) ∧ Good g' ∧
        g'.self = g.self := by
      cases c with
      | init N => exact gpInit_ok hf hk hg N
      | ensure r => exact gpEnsure_ok hf hk hg r
    obtain ⟨h1, g1, r1, e1, hk1, hg1, hs1⟩ := h1
    obtain ⟨h2, g2, r2, e2, hk2, hg2, hs2⟩ := ih hk1 hg1
    exact ⟨h2, g2, r1 :: r2, by simp [calls, e1, e2], hk2, hg2, hs2.trans hs1⟩

theorem gpFree_ok {h : Heap} {g : GraphRec} {base : List Nat}
    (hk : Ok h (ptrs g ++ g.self :: base)) : ∃ h', gpFree h g = some h' ∧ Ok h' base := by
  obtain ⟨h1, e1, hk1⟩ := clear_ok hk
  obtain ⟨h2, e2, hk2, -⟩ := Ok.free (A := []) hk1
  exact ⟨h2, by simp [gpFree, e1, e2], hk2⟩

end Verif.Memory
