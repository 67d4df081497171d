import Verif.Memory.HeapLemmas

/-
Property theorems C15 (initialisation failure and freeing) and the memory side of C14.
-/
namespace Verif.Props
open Verif.Memory

/-- A heap as it can occur: distinct live blocks, all with identifiers handed out before. -/
def Heap.Sound (h : Heap) : Prop := h.live.Nodup ∧ ∀ p ∈ h.live, p < h.next

/-- The allocations whose failure the code survives: the graph record, the vertex array, the
vertex info array, and the four stack blocks of `gp_EnsureArcCapacity`. -/
def survivable : List Site :=
  [.graphRec, .vertices, .vertexInfo, .newStkRec, .newStkArr, .newHlsRec, .newHlsArr]

theorem ok_of_sound {h : Heap} (hs : Heap.Sound h) : Ok h h.live := ⟨.refl _, hs.1, hs.2⟩

/-- **C15 (for survivable faults).** Whatever is live before, whatever calls are made between
gp_New and gp_Free, and whatever subset of the survivable allocations fails, no call frees a dead
block or follows a NULL pointer, and at the end exactly the blocks from before are live: nothing
is leaked or freed twice. -/
theorem C15_life_partial {f : Faults} (hf : ∀ s n, f s n = true → s ∈ survivable) {h : Heap}
    (hs : Heap.Sound h) (cs : List Call) :
    ∃ h' rs, life f h cs = some (h', rs) ∧ h'.live.Perm h.live ∧ Heap.Sound h' := by
  have hb : Benign f := by
    intro s n hn
    have := hf s n hn
    revert this
    cases s <;> decide
  have hk := ok_of_sound hs
  unfold life gpNew
  rcases hk.alloc_any f .graphRec with ⟨h1, e1, hk1, -⟩ | ⟨p, h1, e1, hk1, -⟩
  · exact ⟨h1, [], by simp [e1], hk1.perm, hk1.nodup, hk1.bound⟩
  · obtain ⟨h2, e2, hk2⟩ := clear_ok (h := h1) (g := { self := p }) (base := p :: h.live) hk1
    obtain ⟨h3, g3, rs, e3, hk3, -, hs3⟩ := calls_ok hb cs (h := h2) (g := { self := p }) hk2 (.inl rfl)
    obtain ⟨h4, e4, hk4⟩ := gpFree_ok (h := h3) (g := g3) (base := h.live) (by rw [hs3]; exact hk3)
    exact ⟨h4, rs, by simp [e1, e2, e3, e4], hk4.perm, hk4.nodup, hk4.bound⟩

/-- Faults at the vertex array on the first attempt and at a growth stack later. -/
def someFaults : Faults := fun s n => decide (s = .vertices ∧ n < 3) || decide (s = .newHlsArr)

example : (∀ s n, someFaults s n = true → s ∈ survivable) ∧ Heap.Sound { live := [4, 7], next := 8 } ∧
    (life someFaults { live := [4, 7], next := 8 }
      [.ensure 8, .init 5, .init 5, .init 5, .ensure 100, .init 2]).map Prod.snd =
      some [.ok, .notok, .notok, .ok, .notok, .notok] := by
  refine ⟨?_, ⟨by decide, by decide⟩, by decide +kernel⟩
  intro s n
  cases s <;> simp [someFaults, survivable]

/-- **C15, exact behaviour of the first gp_InitGraph under every fault pattern.** It never frees a
dead block itself; either it returns OK, or NOTOK with exactly the blocks from before live and all
sizes zero. In the second case the structure is as after gp_New and gp_Free is safe and releases
everything if the vertex array or the vertex info array was the one that failed; in every other
case gp_Free frees a dead block. -/
theorem C15_first_init_partial (f : Faults) {h : Heap} (hs : Heap.Sound h) {self c N : Nat}
    (hself : self ∈ h.live) (hN : N ≠ 0) :
    ∃ h' g' r, gpInit f h { self := self, arcCap := c } N = some (h', g', r) ∧
      (r = .ok ∧ g'.N = N ∨
       r = .notok ∧ h'.live.Perm h.live ∧ g'.N = 0 ∧ g'.arcCap = 0 ∧
        (f .vertices h.calls = true ∨ f .vertexInfo (h.calls + 1) = true →
          g' = { self := self } ∧ ∃ h'', gpFree h' g' = some h'' ∧ (self :: h''.live).Perm h.live) ∧
        (¬ (f .vertices h.calls = true ∨ f .vertexInfo (h.calls + 1) = true) →
          gpFree h' g' = none)) := by
  obtain ⟨base, hbase⟩ : ∃ base, h.live.Perm (self :: base) :=
    ⟨h.live.erase self, List.perm_cons_erase hself⟩
  have hk : Ok h (self :: base) := ⟨hbase, hs.1, hs.2⟩
  obtain ⟨ok, h', g', h1, hk1, hsf, hfull, hlate, hvi, hok⟩ := initChain_ok f (h := h)
    (base := self :: base) (g := initSizes { self := self, arcCap := c } N) hk rfl rfl rfl rfl rfl rfl rfl
    (.inl rfl) hN
  unfold gpInit
  cases ok with
  | true =>
    refine ⟨h', g', .ok, by simp [h1, hN], .inl ⟨rfl, ?_⟩⟩
    exact (hfull rfl).2
  | false =>
    obtain ⟨h2, e2, hk2⟩ := clear_ok hk1
    have hsf : g'.self = self := hsf
    rw [hsf] at e2
    refine ⟨h2, { self := self, vertexInfo := g'.vertexInfo }, .notok, by simp [h1, hN, e2],
      .inr ⟨rfl, hk2.perm.trans hbase.symm, rfl, rfl, fun hv => ?_, fun hv => ?_⟩⟩
    · rw [hvi.2 hv]
      obtain ⟨h3, e3, hk3⟩ := gpFree_ok (h := h2) (g := { self := self }) (base := base) hk2
      exact ⟨rfl, h3, e3, (hk3.perm.cons _).trans hbase.symm⟩
    · obtain ⟨p, hp⟩ : ∃ p, g'.vertexInfo = some p :=
        Option.ne_none_iff_exists'.1 fun hn => hv (hvi.1 hn)
      have hdead : p ∉ self :: base := by
        have := Ok.not_mem (h := h') (p := p)
          (A := pairList g'.hls ++ (g'.extFace.toList ++ (pairList g'.stk ++ (pairList g'.dfs ++
            (pairList g'.brl ++ g'.edges.toList)))))
          (B := g'.vertices.toList ++ self :: base) (by simpa [ptrs, hp] using hk1)
        intro hm; exact this (by simp only [List.mem_append]; exact .inr (.inr hm))
      have := hk2.free_dead hdead
      simp [gpFree, clear, hp, Heap.freeOpt, this]

example : Heap.Sound { live := [3], next := 4 } ∧ 3 ∈ (Heap.mk [3] 4 0).live ∧
    (gpInit (fun s _ => s == .extFace) ⟨[3], 4, 0⟩ { self := 3 } 5).map (·.2.2) = some .notok :=
  ⟨⟨by decide, by decide⟩, by decide, by decide +kernel⟩

/-- **C15 is false of the code**: for every later allocation of gp_InitGraph, its failure (the only
one) makes `gp_New; gp_InitGraph; gp_Free` free the vertex info array twice. -/
theorem C15_init_failure_false :
    ∀ s ∈ [Site.edges, .brlRec, .brlArr, .dfsRec, .dfsArr, .stkRec, .stkArr, .extFace, .hlsRec,
      .hlsArr], life (fun t _ => t == s) {} [.init 5] = none := by
  decide +kernel

/-- A second initialisation after such a failure is undefined too when its first allocation
fails. -/
theorem C15_second_init_false :
    ∃ f : Faults, calls f { live := [0], next := 1 } { self := 0 } [.init 5] ≠ none ∧
      calls f { live := [0], next := 1 } { self := 0 } [.init 5, .init 5] = none :=
  ⟨fun s n => s == .edges || (s == .vertices && 2 < n), by decide +kernel, by decide +kernel⟩

/-- **C14, memory side**: a failed reallocation of the edge array leaks the old array, for every
graph: it is live but no field names it any more. Concrete case: after gp_Free one block stays. -/
theorem C14_realloc_leak_false :
    (life (fun s _ => s == .edgesRealloc) {} [.init 5, .ensure 100]).map
      (fun r => (r.1.live.length, r.2)) = some (1, [.ok, .notok]) := by
  decide +kernel

end Verif.Props
