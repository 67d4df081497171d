import Verif.Graph.Exec

/-
Property theorems C01-C08, C12, C55: the edge store.

Vocabulary used in the statements:
* `g.walk false v` / `g.walk true v`: what a user's loop over the adjacency list of `v` meets,
  forwards from the first arc / backwards from the last arc (`none`: bad access or no end);
* `g.step op = some (g', out)`: the call `op` runs without undefined behaviour, leaves `g'` and
  returns `out`;
* `g.Valid op`: the documented preconditions; `Reach g`: `g` was produced from an initialised
  graph by valid calls.
-/
namespace Verif.Props
open Verif Verif.Graph Function

/-! ## C01 -/

/-- **C01.** Every valid history of additions, insertions, deletions and direction settings on a
freshly initialised graph runs without undefined behaviour, and the adjacency lists (walked
forwards and backwards) are exactly the halves of the edges added and not deleted. -/
theorem C01_history_refines_multigraph (N arcCap : Nat) (hc : arcCap % 2 = 0) (ops : List Op)
    (hv : ValidRun (Graph.init N arcCap) ops) :
    ∃ g outs T, exec (Graph.init N arcCap) ops = some (g, outs) ∧ SpecRun [] ops outs T ∧
      Matches g T ∧ g.N = N := by
  obtain ⟨g, outs, T, h1, h2, ⟨rot, h3⟩, h4⟩ := exec_sim ops (sim_init N arcCap hc) hv
  exact ⟨g, outs, T, h1, h2, sim_matches h3, h4⟩

example : ∃ g outs T, exec (Graph.init 3 18) sampleOps = some (g, outs) ∧ SpecRun [] sampleOps outs T ∧
    Matches g T ∧ g.N = 3 := C01_history_refines_multigraph 3 18 rfl sampleOps sample_valid

theorem sample_reach : Reach sample :=
  reach_exec sampleOps (.init 3 18 (by decide) rfl) sample_valid (outs := [.code .ok, .code .ok,
    .code .ok, .code .ok, .arc 5, .code .ok, .code .notok]) (by
      have : ∃ g outs, exec (Graph.init 3 18) sampleOps = some (g, outs) ∧ outs = [.code .ok,
          .code .ok, .code .ok, .code .ok, .arc 5, .code .ok, .code .notok] := by
        obtain ⟨g, outs, T, h, -⟩ := C01_history_refines_multigraph 3 18 rfl sampleOps sample_valid
        refine ⟨g, outs, h, ?_⟩
        have h2 : (exec (Graph.init 3 18) sampleOps).map Prod.snd = some [.code .ok,
          .code .ok, .code .ok, .code .ok, .arc 5, .code .ok, .code .notok] := by decide +kernel
        rw [h] at h2
        simpa using h2
      obtain ⟨g, outs, h, rfl⟩ := this
      rw [sample, h]; rfl)

/-! ## C02 -/

/-- **C02 (count).** After any valid history the edge counter is the number of edges of the
abstract multigraph. -/
theorem C02_count (N arcCap : Nat) (hc : arcCap % 2 = 0) (ops : List Op)
    (hv : ValidRun (Graph.init N arcCap) ops) :
    ∃ g outs T, exec (Graph.init N arcCap) ops = some (g, outs) ∧ SpecRun [] ops outs T ∧
      Matches g T ∧ (T.map (fun t => t.1 / 2)).Nodup ∧ g.M = T.length := by
  obtain ⟨g, outs, T, h1, h2, ⟨rot, h3⟩, h4⟩ := exec_sim ops (sim_init N arcCap hc) hv
  exact ⟨g, outs, T, h1, h2, sim_matches h3, h3.keys, h3.count⟩

/-- **C02 (degree sum, limit).** In every reachable graph the degrees of all vertices sum to 2M
and M is at most half the arc capacity. -/
theorem C02_degree_sum {g : Graph} (hr : Reach g) :
    (∃ d : Nat → Nat, (∀ v, IsVertex g v → g.degree v = some (d v)) ∧
      ((List.range' 1 (g.N + g.N)).map d).sum = 2 * g.M) ∧ g.M ≤ g.arcCap / 2 := by
  obtain ⟨rot, h⟩ := hr.inv
  refine ⟨⟨fun v => (rot v).length, ?_, ?_⟩, by have := h.room; omega⟩
  · intro v hv
    rw [vSize_iff] at hv
    rw [degree, if_neg (by omega), degree_loop_eq h.links hv.2 1, List.countP_eq_length.2]
    intro e _; simpa using dir_ne_one _
  · rw [← h.count, allArcs, List.length_flatMap]
    have : List.range g.vSize = 0 :: List.range' 1 (g.N + g.N) := by
      rw [List.range_eq_range', show g.vSize = (g.N + g.N) + 1 by unfold vSize; omega,
        List.range'_succ]
    rw [this, List.map_cons, List.sum_cons]
    have h0 : rot 0 = [] := by
      apply List.eq_nil_iff_forall_not_mem.2
      intro e he
      have := (h.links.vert _ _ he).1; omega
    simp [h0]

/-- **C02 (gp_AddEdge codes).** -/
theorem C02_addEdge_codes {g : Graph} (hr : Reach g) (u v : Int) (ul vl : Nat) (hul : ul ≤ 1)
    (hvl : vl ≤ 1) :
    let inRange : Prop := 1 ≤ u ∧ u ≤ (g.N + g.N : Nat) ∧ 1 ≤ v ∧ v ≤ (g.N + g.N : Nat)
    (¬ inRange → g.addEdge u ul v vl = some (g, .notok)) ∧
    (inRange → g.M ≥ g.arcCap / 2 → g.addEdge u ul v vl = some (g, .nonembeddable)) ∧
    (inRange → g.M < g.arcCap / 2 → ∃ g', g.addEdge u ul v vl = some (g', .ok) ∧
      g'.M = g.M + 1) := by
  intro inRange
  have hiff : (g.vertexOk u && g.vertexOk v) = true ↔ inRange := by
    simp only [vertexOk, Bool.and_eq_true, decide_eq_true_eq, inRange]; tauto
  refine ⟨fun hn => ?_, fun hi hM => ?_, fun hi hM => ?_⟩
  · have : (g.vertexOk u && g.vertexOk v) = false := by
      rw [← Bool.not_eq_true, hiff]; exact hn
    simp [addEdge, this]
  · have := hiff.2 hi
    simp [addEdge, this, hM]
  · have hok := hiff.2 hi
    rw [Bool.and_eq_true] at hok
    obtain ⟨rot, h⟩ := hr.inv
    obtain ⟨bu, hbu⟩ := linkOf_le hul
    obtain ⟨bv, hbv⟩ := linkOf_le hvl
    have hu := vertexOk_iff.1 hok.1
    have hv' := vertexOk_iff.1 hok.2
    obtain ⟨g', hg', _, hM', -⟩ := putEdge_spec h hM bu bv ⟨hu.1, hu.2.1⟩ ⟨hv'.1, hv'.2.1⟩
      (eu := 0) (ev := 0) (.inl rfl) (.inl rfl)
    exact ⟨g', by rw [addEdge_spec hok.1 hok.2 hM hbu hbv, hg'], hM'⟩

example : Reach sample := sample_reach
example : sample.M = 3 ∧ sample.arcCap = 18 := by decide +kernel

/-! ## C03 -/

/-- **C03.** Free-slot memory: pairwise different pairs, in range, not live, never overflowing;
each slot below the occupied bound is either live or free; the bound stays inside the array. -/
theorem C03_free_slots {g : Graph} (hr : Reach g) :
    (g.holes.map (· / 2)).Nodup ∧ (∀ h ∈ g.holes, 2 ≤ h ∧ h < g.inUse ∧ ¬ Live g h ∧ ¬ Live g (h ^^^ 1)) ∧
    g.holes.length ≤ g.holesCap ∧
    (∀ e, 2 ≤ e → e < g.inUse → (Live g e ↔ ¬ (e ∈ g.holes ∨ e ^^^ 1 ∈ g.holes))) ∧
    (∀ e, Live g e → 2 ≤ e ∧ e < g.inUse) ∧ g.inUse ≤ g.eSize := by
  obtain ⟨rot, h⟩ := hr.inv
  refine ⟨h.holeNodup, ?_, ?_, ?_, ?_, h.inUse_le⟩
  · intro e he
    obtain ⟨h1, h2, h3⟩ := h.holeRange e he
    refine ⟨h1, h2, ?_, ?_⟩
    · rw [live_iff h]; exact fun ⟨w, hw⟩ => h3 w hw
    · rw [live_iff h]; exact fun ⟨w, hw⟩ => h.twin_not h3 w hw
  · have := h.room; have := h.holesCap; omega
  · intro e h2 h3
    rw [live_iff h]
    constructor
    · rintro ⟨w, hw⟩ (hh | hh)
      · exact (h.holeRange _ hh).2.2 w hw
      · have := h.twin_not (h.holeRange _ hh).2.2 w
        rw [show twin (e ^^^ 1) = e from twin_twin e] at this
        exact this hw
    · intro hn
      rcases h.cover e h2 h3 with hh | hh | hh
      · exact hh
      · exact absurd (.inl hh) hn
      · exact absurd (.inr hh) hn
  · intro e he
    rw [live_iff h] at he
    obtain ⟨w, hw⟩ := he
    exact ⟨(h.links.arc _ _ hw).1, h.below _ _ hw⟩

/-- **C03 (reuse).** A successful addition consumes a remembered slot if there is one, and
enlarges the occupied part of the edge array only if there is none. -/
theorem C03_reuse {g g' : Graph} (hr : Reach g) {u v : Int} {ul vl : Nat} (hul : ul ≤ 1)
    (hvl : vl ≤ 1) (hs : g.addEdge u ul v vl = some (g', .ok)) :
    g'.holes = g.holes.tail ∧ g'.inUse = if g.holes = [] then g.inUse + 2 else g.inUse := by
  obtain ⟨rot, h⟩ := hr.inv
  have hok : (g.vertexOk u && g.vertexOk v) = true := by
    by_contra hn
    rw [Bool.not_eq_true] at hn
    simp [addEdge, hn] at hs
  have hM : g.M < g.arcCap / 2 := by
    by_contra hn
    simp [addEdge, hok, Nat.not_lt.1 hn] at hs
  rw [Bool.and_eq_true] at hok
  obtain ⟨bu, hbu⟩ := linkOf_le hul
  obtain ⟨bv, hbv⟩ := linkOf_le hvl
  have hu := vertexOk_iff.1 hok.1
  have hv' := vertexOk_iff.1 hok.2
  obtain ⟨g2, hg2, _, hM', _, _, hH, -⟩ := putEdge_spec h hM bu bv ⟨hu.1, hu.2.1⟩ ⟨hv'.1, hv'.2.1⟩
    (eu := 0) (ev := 0) (.inl rfl) (.inl rfl)
  rw [addEdge_spec hok.1 hok.2 hM hbu hbv, hg2] at hs
  cases hs
  have : g.takeSlot.2.holes = g.holes.tail := by
    unfold takeSlot; split <;> simp_all
  rw [this] at hH
  refine ⟨hH, ?_⟩
  unfold inUse
  rw [hM', hH]
  split
  · next hh => simp [hh]; omega
  · next hh =>
    rcases hh' : g.holes with _ | ⟨a, L⟩
    · exact absurd hh' hh
    · simp; omega

example : sample.holes = [2] ∧ sample.inUse = 10 := by decide +kernel
example : (sample.addEdge 2 0 3 1).map (fun r => (r.1.holes, r.1.inUse, r.2)) = some ([], 10, .ok) := by
  decide +kernel

/-! ## C04 -/

/-- **C04.** gp_AddEdge puts one new arc at the chosen end of each list. -/
theorem C04_addEdge_position {g : Graph} (hr : Reach g) {u v ul vl : Nat} (hu : IsVertex g u)
    (hv : IsVertex g v) (hul : ul ≤ 1) (hvl : vl ≤ 1) (hM : g.M < g.arcCap / 2) :
    ∃ g' x, g.addEdge u ul v vl = some (g', .ok) ∧ EdgePlaced g g' x u 0 ul v 0 vl := by
  obtain ⟨rot, h⟩ := hr.inv
  obtain ⟨bu, hbu⟩ := linkOf_le hul
  obtain ⟨bv, hbv⟩ := linkOf_le hvl
  obtain ⟨g', x, hg', hp⟩ := edgePlaced h hM hbu hbv (vSize_iff.1 hu) (vSize_iff.1 hv)
    (eu := 0) (ev := 0) (.inl rfl) (.inl rfl)
  have hk : ∀ {w : Nat}, IsVertex g w → g.vertexOk (w : Int) = true := by
    intro w hw
    rw [vertexOk_iff]
    have := vSize_iff.1 hw
    simp only [Int.toNat_natCast]
    omega
  refine ⟨g', x, ?_, hp⟩
  rw [addEdge_spec (hk hu) (hk hv) hM hbu hbv]
  simpa using hg'

example : IsVertex sample 3 ∧ IsVertex sample 6 ∧ sample.M < sample.arcCap / 2 := by
  unfold IsVertex; decide +kernel

/-! ## C05 -/

/-- **C05.** gp_InsertEdge puts one new arc next to the given arc (or at the chosen end). -/
theorem C05_insertEdge_position {g : Graph} (hr : Reach g) {u v eu ev ul vl : Nat}
    (hu : IsVertex g u) (hv : IsVertex g v) (hul : ul ≤ 1) (hvl : vl ≤ 1)
    (hM : g.M < g.arcCap / 2) (heu : eu = 0 ∨ g.ArcAt u eu) (hev : ev = 0 ∨ g.ArcAt v ev) :
    ∃ g' x, g.insertEdge u eu ul v ev vl = some (g', .ok) ∧ EdgePlaced g g' x u eu ul v ev vl := by
  obtain ⟨rot, h⟩ := hr.inv
  rw [h.arcAt] at heu hev
  obtain ⟨bu, hbu⟩ := linkOf_le hul
  obtain ⟨bv, hbv⟩ := linkOf_le hvl
  obtain ⟨g', x, hg', hp⟩ := edgePlaced h hM hbu hbv (vSize_iff.1 hu) (vSize_iff.1 hv) heu hev
  have hk : ∀ {w : Nat}, IsVertex g w → g.vertexOk (w : Int) = true := by
    intro w hw
    rw [vertexOk_iff]
    have := vSize_iff.1 hw
    simp only [Int.toNat_natCast]
    omega
  have hlk : ∀ {l : Nat} {b : Bool}, linkOf l = some b → (l : Int) = if b then 1 else 0 := by
    intro l b hb
    rcases l with _ | _ | l <;> cases hb <;> rfl
  refine ⟨g', x, ?_, hp⟩
  rw [hlk hbu, hlk hbv]
  have := insertEdge_spec h (hk hu) (hk hv) hM (bu := bu) (bv := bv) (eu := eu) (ev := ev)
    (by simpa using heu) (by simpa using hev)
  rw [this]
  simpa using hg'

/-- **C05 (codes).** The other results of gp_InsertEdge: NOTOK exactly when an argument is
outside its checked range, NONEMBEDDABLE when the capacity is used up; the graph is unchanged. -/
theorem C05_insertEdge_codes {g : Graph} (u eu ul v ev vl : Int) :
    let argsOk : Prop := 1 ≤ u ∧ u ≤ (g.N + g.N : Nat) ∧ 1 ≤ v ∧ v ≤ (g.N + g.N : Nat) ∧
      (eu = 0 ∨ 2 ≤ eu ∧ eu < g.inUse) ∧ (ev = 0 ∨ 2 ≤ ev ∧ ev < g.inUse) ∧
      (ul = 0 ∨ ul = 1) ∧ (vl = 0 ∨ vl = 1)
    (¬ argsOk → g.insertEdge u eu ul v ev vl = some (g, .notok)) ∧
    (argsOk → g.M ≥ g.arcCap / 2 → g.insertEdge u eu ul v ev vl = some (g, .nonembeddable)) := by
  intro argsOk
  have hpos : (0 : Int) < (g.inUse : Int) - 1 := by unfold inUse; push_cast; omega
  have hiff : ((!(g.vertexOk u && g.vertexOk v)) = true ∨ eu > (g.inUse : Int) - 1 ∨ (eu < 2 ∧ eu ≠ 0) ∨
      ev > (g.inUse : Int) - 1 ∨ (ev < 2 ∧ ev ≠ 0) ∨ ul < 0 ∨ ul > 1 ∨ vl < 0 ∨ vl > 1) ↔
      ¬ argsOk := by
    simp only [vertexOk, Bool.not_eq_true', Bool.and_eq_false_iff, decide_eq_false_iff_not, argsOk]
    generalize ((g.N + g.N : Nat) : Int) = n
    omega
  refine ⟨fun hn => ?_, fun ha hM => ?_⟩
  · simp only [insertEdge]; rw [if_pos (hiff.2 hn)]
  · simp only [insertEdge]; rw [if_neg (by rw [hiff]; exact not_not.2 ha), if_pos hM]

example : sample.ArcAt 3 7 ∧ sample.ArcAt 1 9 := by
  constructor <;> exact arcAtB_sound (by decide +kernel)

/-! ## C06 -/

/-- **C06.** gp_DeleteEdge removes exactly the two arcs of the edge and returns the arc next to
`e` in the requested direction. `A ++ e :: B` is the list `e` was in. -/
theorem C06_deleteEdge {g : Graph} (hr : Reach g) {v e nl : Nat} {A B : List Nat} (hnl : nl ≤ 1)
    (hl : g.walk false v = some (A ++ e :: B)) :
    ∃ g', g.deleteEdge e nl = some (g', if nl = 0 then B.headD 0 else A.getLastD 0) ∧
      (∀ w, IsVertex g w → ∃ L, HasList g w L ∧
        HasList g' w (L.filter fun a => a ≠ e ∧ a ≠ e ^^^ 1)) ∧
      g'.M + 1 = g.M ∧ g'.N = g.N ∧ g'.arcCap = g.arcCap ∧
      (∀ a, a ≠ e → a ≠ e ^^^ 1 → Live g a → Live g' a ∧ g'.getNbr a = g.getNbr a ∧
        (g'.E a).flags = (g.E a).flags) ∧ ¬ Live g' e ∧ ¬ Live g' (e ^^^ 1) ∧ Free g' e := by
  obtain ⟨rot, h⟩ := hr.inv
  have he : e ∈ rot v := h.arcAt.1 ⟨_, hl, by simp⟩
  have hv := (h.links.vert _ _ he).2
  have hrv : rot v = A ++ e :: B := by
    have := walk_eq h.links hv false
    rw [hl] at this
    simpa using this.symm
  obtain ⟨b, hb⟩ := linkOf_le hnl
  obtain ⟨g', hg', hI, hM, hN, hC, hF, hS, _, _, _, hE, _, _⟩ := deleteEdge_spec h he nl b hb
  have hnd := h.links.nodup v
  rw [hrv] at hnd
  have hret : nextIn (dir b (rot v)) e = if nl = 0 then B.headD 0 else A.getLastD 0 := by
    have hA : e ∉ A := by
      intro hh
      have := List.nodup_append.1 hnd
      exact this.2.2 e hh e (by simp) rfl
    have hB : e ∉ B := by
      have := (List.nodup_append.1 hnd).2.1
      exact (List.nodup_cons.1 this).1
    rcases nl with _ | _ | nl
    · cases hb; rw [hrv, dir_false, nextIn_append_right hA, nextIn_cons_self]; simp
    · cases hb
      rw [hrv, dir_true, List.reverse_append, List.reverse_cons, List.append_assoc,
        nextIn_append_right (by simpa using hB), List.singleton_append, nextIn_cons_self]
      simp [List.headD_eq_head?_getD, List.getLastD_eq_getLast?]
    · omega
  rw [hret] at hg'
  have hes : g'.eSize = g.eSize := by simp [eSize, hC]
  have hne : ∀ w, e ∉ removeRot e rot w := fun w hw => (mem_removeRot.1 hw).2.1 rfl
  refine ⟨g', hg', ?_, hM, hN, hC, ?_, ?_, ?_, ?_⟩
  · intro w hw
    rw [vSize_iff] at hw
    exact ⟨rot w, hasList h.links hw.2, hasList hI.links (by simpa [vSize, hN] using hw.2)⟩
  · intro a h1 h2 hl
    rw [live_iff h] at hl
    obtain ⟨w, hw⟩ := hl
    have har := (h.links.arc _ _ hw).2
    refine ⟨(live_iff hI).2 ⟨w, mem_removeRot.2 ⟨hw, h1, h2⟩⟩, ?_, (hE a h1 h2).2⟩
    rw [getNbr_eq har, getNbr_eq (hes ▸ har), (hE a h1 h2).1]
  · rw [live_iff hI]; exact fun ⟨w, hw⟩ => hne w hw
  · rw [live_iff hI]; exact fun ⟨w, hw⟩ => (mem_removeRot.1 hw).2.2 rfl
  · exact free_of_dead hI hne (h.links.arc _ _ he).1

example : sample.walk false 3 = some ([8] ++ 7 :: [6]) := by decide +kernel

/-! ## C07 -/

/-- **C07.** Adding an edge and deleting it again (by either of its two arcs) gives back the same
lists, the same records, the same count and the same set of free slots. -/
theorem C07_add_delete {g : Graph} (hr : Reach g) {u v ul vl nl : Nat} (hu : IsVertex g u)
    (hv : IsVertex g v) (hul : ul ≤ 1) (hvl : vl ≤ 1) (hnl : nl ≤ 1) (hM : g.M < g.arcCap / 2) :
    ∃ g1 x, g.addEdge u ul v vl = some (g1, .ok) ∧ EdgePlaced g g1 x u 0 ul v 0 vl ∧
      ∀ y, y = x ∨ y = x ^^^ 1 → ∃ g2 r, g1.deleteEdge y nl = some (g2, r) ∧
        (∀ w, IsVertex g w → ∃ L, HasList g w L ∧ HasList g2 w L) ∧
        g2.M = g.M ∧ g2.N = g.N ∧ g2.arcCap = g.arcCap ∧ g2.flags = g.flags ∧ g2.stack = g.stack ∧
        g2.E = g.E ∧ (∀ w, w < g.vSize → g2.V w = g.V w) ∧
        (∀ e, 2 ≤ e → (Free g2 e ↔ Free g e)) := by
  obtain ⟨rot, h⟩ := hr.inv
  obtain ⟨g1, x, hg1, hp⟩ := C04_addEdge_position hr hu hv hul hvl hM
  refine ⟨g1, x, hg1, hp, ?_⟩
  have hr1 : Reach g1 := hr.step (op := .add u ul v vl) ⟨hul, hvl⟩
    (by simp only [Graph.step, hg1]; rfl)
  obtain ⟨rot1, h1⟩ := hr1.inv
  obtain ⟨hf1, hf2, -⟩ := hp.fresh
  rw [live_iff h] at hf1 hf2
  have hvs1 : g1.vSize = g.vSize := by simp [vSize, hp.count.2.1]
  -- the lists of `g1`, element-wise
  have hrot1 : ∀ w, IsVertex g w → ∃ L1, (if w = u then Placed 0 ul x (rot w) L1 else L1 = rot w) ∧
      (if w = v then Placed 0 vl (x ^^^ 1) L1 (rot1 w) else rot1 w = L1) := by
    intro w hw
    obtain ⟨L, L1, L2, hL, ha, hb, hL2⟩ := hp.lists w hw
    have hw' := vSize_iff.1 hw
    have e1 : L = rot w := by
      have := hL.1; rw [walk_eq h.links hw'.2 false] at this; simpa using this.symm
    have e2 : L2 = rot1 w := by
      have := hL2.1; rw [walk_eq h1.links (hvs1 ▸ hw'.2) false] at this; simpa using this.symm
    subst e1 e2
    exact ⟨L1, ha, hb⟩
  have hplaced : ∀ {l y : Nat} {L L' : List Nat}, Placed 0 l y L L' →
      (∀ a, a ∈ L' ↔ a = y ∨ a ∈ L) ∧ ∀ (p : Nat → Bool), p y = false → L'.filter p = L.filter p := by
    intro l y L L' hpl
    cases hpl with
    | front => exact ⟨by simp, fun p hp => by simp [hp]⟩
    | back => exact ⟨by simp [or_comm], fun p hp => by simp [hp]⟩
    | after h => exact absurd rfl h
    | before h => exact absurd rfl h
  have hxu : x ∈ rot1 u := by
    obtain ⟨L1, ha, hb⟩ := hrot1 u hu
    rw [if_pos rfl] at ha
    have := ((hplaced ha).1 x).2 (.inl rfl)
    split at hb
    · exact ((hplaced hb).1 x).2 (.inr this)
    · rw [hb]; exact this
  have hxv : x ^^^ 1 ∈ rot1 v := by
    obtain ⟨L1, ha, hb⟩ := hrot1 v hv
    rw [if_pos rfl] at hb
    exact ((hplaced hb).1 _).2 (.inl rfl)
  have hfilter : ∀ w, removeRot x rot1 w = rot w := by
    intro w
    by_cases hw : IsVertex g w
    · obtain ⟨L1, ha, hb⟩ := hrot1 w hw
      have s1 : (rot1 w).filter (fun e => e ≠ x ∧ e ≠ twin x) =
          L1.filter (fun e => e ≠ x ∧ e ≠ twin x) := by
        split at hb
        · exact (hplaced hb).2 _ (by simp [twin])
        · rw [hb]
      have s2 : L1.filter (fun e => e ≠ x ∧ e ≠ twin x) =
          (rot w).filter (fun e => e ≠ x ∧ e ≠ twin x) := by
        split at ha
        · exact (hplaced ha).2 _ (by simp)
        · rw [ha]
      unfold removeRot
      rw [s1, s2, List.filter_eq_self]
      intro a ha'
      simp only [decide_eq_true_eq]
      exact ⟨fun hh => hf1 ⟨w, hh ▸ ha'⟩, fun hh => hf2 ⟨w, (show a = x ^^^ 1 from hh) ▸ ha'⟩⟩
    · have e1 : ∀ {g' : Graph} {r : Nat → List Nat}, Inv g' r → g'.vSize = g.vSize → r w = [] := by
        intro g' r hI hs
        apply List.eq_nil_iff_forall_not_mem.2
        intro e he
        apply hw
        rw [vSize_iff]
        have := hI.links.vert _ _ he
        rw [hs] at this; exact this
      unfold removeRot
      rw [e1 h1 hvs1, e1 h rfl]; rfl
  have hrem : removeRot x rot1 = rot := funext hfilter
  have hremt : removeRot (x ^^^ 1) rot1 = rot := by
    rw [← hrem]
    funext w
    unfold removeRot
    congr 1
    funext e
    rw [show twin (x ^^^ 1) = x from twin_twin x, show twin x = x ^^^ 1 from rfl]
    simp only [Bool.decide_and]
    exact Bool.and_comm _ _
  intro y hy
  obtain ⟨b, hb⟩ := linkOf_le hnl
  have hyw : ∃ w, y ∈ rot1 w := by
    rcases hy with rfl | rfl
    · exact ⟨u, hxu⟩
    · exact ⟨v, hxv⟩
  obtain ⟨w, hyw⟩ := hyw
  obtain ⟨g2, hg2, hI, hM2, hN2, hC2, hF2, hS2, _, _, _, hE2, hi2, hv2⟩ := deleteEdge_spec h1 hyw nl b hb
  have hR : removeRot y rot1 = rot := by rcases hy with rfl | rfl <;> assumption
  rw [hR] at hI
  have hE : ∀ e, g2.E e = g.E e := by
    intro e
    by_cases hl : ∃ w, e ∈ rot w
    · obtain ⟨w', hw'⟩ := hl
      have hex : e ≠ x ∧ e ≠ x ^^^ 1 := ⟨fun hh => hf1 ⟨w', hh ▸ hw'⟩, fun hh => hf2 ⟨w', hh ▸ hw'⟩⟩
      have hey : e ≠ y ∧ e ≠ twin y := by
        rcases hy with rfl | rfl
        · exact hex
        · exact ⟨hex.2, by rw [show twin (x ^^^ 1) = x from twin_twin x]; exact hex.1⟩
      have ho := hp.others e ((live_iff h).2 ⟨w', hw'⟩)
      have har := h.links.arc _ _ hw'
      rw [getNbr_eq har.2, getNbr_eq (by have := har.2; simp only [eSize, hp.count.2.2.1] at this ⊢; exact this)] at ho
      have hd := hE2 e hey.1 hey.2
      have l1 := hI.links.elink w' false e hw'
      have l2 := hI.links.elink w' true e hw'
      rw [← h.links.elink w' false e hw'] at l1
      rw [← h.links.elink w' true e hw'] at l2
      have n1 : (g2.E e).nbr = (g.E e).nbr := by rw [hd.1]; simpa using ho
      have n2 : (g2.E e).flags = (g.E e).flags := by rw [hd.2]; exact hp.sameFlags e
      simp only [ERec.link] at l1 l2
      cases hq : g2.E e; cases hq' : g.E e
      simp_all
    · have hn : ∀ w, e ∉ rot w := fun w hw => hl ⟨w, hw⟩
      rw [hI.zero e hn, h.zero e hn]
  have hNN : g2.N = g.N := by rw [hN2, hp.count.2.1]
  refine ⟨g2, _, hg2, ?_, ?_, hNN, ?_, ?_, ?_, funext hE, ?_, ?_⟩
  · intro w hw
    rw [vSize_iff] at hw
    exact ⟨rot w, hasList h.links hw.2, hasList hI.links (by simpa [vSize, hNN] using hw.2)⟩
  · have := hp.count.1; omega
  · rw [hC2, hp.count.2.2.1]
  · rw [hF2, hp.count.2.2.2.1]
  · rw [hS2, hp.count.2.2.2.2.1]
  · intro w hw
    have l1 := hI.links.vlink w false (by simpa [vSize, hNN] using hw)
    have l2 := hI.links.vlink w true (by simpa [vSize, hNN] using hw)
    rw [← h.links.vlink w false hw] at l1
    rw [← h.links.vlink w true hw] at l2
    have n1 := hi2 w; have n2 := hv2 w
    rw [(hp.count.2.2.2.2.2 w).1] at n1
    rw [(hp.count.2.2.2.2.2 w).2] at n2
    simp only [VRec.link] at l1 l2
    cases hq : g2.V w; cases hq' : g.V w
    simp_all
  · intro e he
    have key : ∀ {g' : Graph}, Inv g' rot → (Free g' e ↔ ∀ w, e ∉ rot w) := by
      intro g' hI'
      constructor
      · rintro (hh | hh | hh) w hw
        · exact (hI'.holeRange _ hh).2.2 w hw
        · have := hI'.twin_not (hI'.holeRange _ hh).2.2 w
          rw [show twin (e ^^^ 1) = e from twin_twin e] at this
          exact this hw
        · have := hI'.below _ _ hw; omega
      · intro hh; exact free_of_dead hI' hh he
    rw [key hI, key h]

/-! ## C08 -/

/-- Hide several edges one after the other. -/
def hideAll (g : Graph) : List Nat → Option Graph
  | [] => some g
  | e :: es => do hideAll (← g.hideEdge e) es

/-- Restore several edges one after the other. -/
def restoreAll (g : Graph) : List Nat → Option Graph
  | [] => some g
  | e :: es => do restoreAll (← g.restoreEdge e) es

theorem restoreAll_append (g : Graph) (as bs : List Nat) :
    restoreAll g (as ++ bs) = (do restoreAll (← restoreAll g as) bs) := by
  induction as generalizing g with
  | nil => rfl
  | cons a as ih =>
    simp only [List.cons_append, restoreAll, Option.bind_eq_bind]
    rcases g.restoreEdge a with _ | g'
    · rfl
    · simp only [Option.bind_some]; rw [ih]; rfl

theorem hideAll_links : ∀ (es : List Nat) {g : Graph} {rot : Nat → List Nat}, Links g rot →
    (∀ v e, e ∈ rot v → (g.E (twin e)).nbr = v) →
    (∀ v e, e ∈ rot v → twin e ∈ rot (g.E e).nbr) →
    (es.map (· / 2)).Nodup → (∀ e ∈ es, ∃ v, e ∈ rot v) →
    ∃ g', hideAll g es = some g' ∧
      Links g' (fun w => (rot w).filter fun a => a / 2 ∉ es.map (· / 2)) ∧
      g'.N = g.N ∧ restoreAll g' es.reverse = some g := by
  intro es
  induction es with
  | nil =>
    intro g rot hL _ _ _ _
    exact ⟨g, rfl, by simpa using hL, rfl, rfl⟩
  | cons e es ih =>
    intro g rot hL how htw hnd hlv
    rw [List.map_cons, List.nodup_cons] at hnd
    obtain ⟨v, hv⟩ := hlv e (by simp)
    obtain ⟨g1, hg1, hL1, hs1, _, hr1, _⟩ := hideEdge_spec hL how hv (htw v e hv)
    have hL1' := hL1
    obtain ⟨g2, hg2, hL2, hN2, hr2⟩ := ih (g := g1) (rot := removeRot e rot) hL1
      (by intro w a ha; rw [hs1.nbr]; exact how w a (mem_removeRot.1 ha).1)
      (by
        intro w a ha
        rw [mem_removeRot] at ha
        rw [hs1.nbr, mem_removeRot]
        refine ⟨htw w a ha.1, fun hh => ha.2.2 ?_, fun hh => ha.2.1 (twin_inj hh)⟩
        rw [← hh, twin_twin])
      hnd.2
      (by
        intro a ha
        obtain ⟨w, hw⟩ := hlv a (by simp [ha])
        have hne : a / 2 ≠ e / 2 := fun hh => hnd.1 (hh ▸ List.mem_map_of_mem (f := (· / 2)) ha)
        refine ⟨w, mem_removeRot.2 ⟨hw, fun hh => hne (by rw [hh]), fun hh => hne ?_⟩⟩
        rw [hh, twin_div])
    refine ⟨g2, ?_, ?_, by rw [hN2, hs1.N], ?_⟩
    · simp only [hideAll, hg1, Option.bind_eq_bind, Option.bind_some, hg2]
    · have : (fun w => (removeRot e rot w).filter fun a => a / 2 ∉ es.map (· / 2)) =
          (fun w => (rot w).filter fun a => a / 2 ∉ (e :: es).map (· / 2)) := by
        funext w
        unfold removeRot
        rw [List.filter_filter]
        congr 1
        funext a
        have : (a / 2 = e / 2) ↔ (a = e ∨ a = twin e) :=
          ⟨div_eq_cases, by rintro (rfl | rfl); rfl; exact twin_div e⟩
        simp only [List.map_cons, List.mem_cons, not_or, this, Bool.decide_and]
        rw [Bool.and_comm]
      rw [← this]; exact hL2
    · rw [List.reverse_cons, restoreAll_append, hr2]
      simp [restoreAll, hr1]

/-- **C08.** Hiding any sequence of distinct live edges is possible, leaves exactly the lists
without them, and restoring them in the opposite order gives back the identical graph. -/
theorem C08_hide_restore {g : Graph} (hr : Reach g) (es : List Nat)
    (hd : (es.map (· / 2)).Nodup) (hl : ∀ e ∈ es, Live g e) :
    ∃ g', hideAll g es = some g' ∧
      (∀ w, IsVertex g w → ∃ L, HasList g w L ∧
        HasList g' w (L.filter fun a => a / 2 ∉ es.map (· / 2))) ∧
      restoreAll g' es.reverse = some g := by
  obtain ⟨rot, h⟩ := hr.inv
  obtain ⟨g', h1, h2, h3, h4⟩ := hideAll_links es h.links h.owner h.twins hd
    (fun e he => (live_iff h).1 (hl e he))
  refine ⟨g', h1, ?_, h4⟩
  intro w hw
  rw [vSize_iff] at hw
  exact ⟨rot w, hasList h.links hw.2, hasList h2 (by simpa [vSize, h3] using hw.2)⟩

example : ([9, 6].map (· / 2)).Nodup ∧ ∀ e ∈ [9, 6], Live sample e := by
  refine ⟨by decide, ?_⟩
  intro e he
  simp only [List.mem_cons, List.not_mem_nil, or_false] at he
  rcases he with rfl | rfl
  · exact ⟨1, arcAtB_sound (by decide +kernel)⟩
  · exact ⟨3, arcAtB_sound (by decide +kernel)⟩

/-! ## C12 -/

/-- **C12 (gp_IsNeighbor).** -/
theorem C12_isNeighbor {g : Graph} (hr : Reach g) {u : Nat} (hu : IsVertex g u) (v : Nat) :
    ∃ b, g.isNeighbor u v = some b ∧
      (b = true ↔ ∃ e d, g.ArcAt u e ∧ g.getNbr e = some v ∧ g.getDirection e = some d ∧ d ≠ 32) := by
  obtain ⟨rot, h⟩ := hr.inv
  have hu' := vSize_iff.1 hu
  refine ⟨(rot u).any fun e => (g.E e).nbr = v ∧ (g.E e).flags &&& DIRMASK ≠ INONLY, ?_, ?_⟩
  · unfold isNeighbor
    simp only [rdV, hu'.2, if_true, Option.bind_eq_bind, Option.bind_some]
    rw [h.links.first hu'.2]
    exact isNeighborLoop_suffix h.links v _ [] _ rfl (h.links.length_le u)
  · simp only [List.any_eq_true, decide_eq_true_eq, h.arcAt]
    constructor
    · rintro ⟨e, he, h1, h2⟩
      have har := (h.links.arc _ _ he).2
      exact ⟨e, (g.E e).flags &&& DIRMASK, he, by rw [getNbr_eq har, h1], by simp [getDirection, rdE, har], h2⟩
    · rintro ⟨e, d, he, h1, h2, h3⟩
      have har := (h.links.arc _ _ he).2
      rw [getNbr_eq har] at h1
      simp only [getDirection, rdE, har, if_true, Option.bind_eq_bind, Option.bind_some,
        Option.pure_def, Option.some.injEq] at h2
      exact ⟨e, he, by simpa using h1, by rw [h2]; exact h3⟩

/-- **C12 (gp_GetNeighborEdgeRecord).** -/
theorem C12_neighborEdge {g : Graph} (hr : Reach g) {u v : Nat} (hu : IsVertex g u) (hv : 1 ≤ v) :
    ∃ e, g.neighborEdge u v = some e ∧
      ((e = 0 ∧ ∀ a, g.ArcAt u a → g.getNbr a ≠ some v) ∨ (g.ArcAt u e ∧ g.getNbr e = some v)) := by
  obtain ⟨rot, h⟩ := hr.inv
  have hu' := vSize_iff.1 hu
  refine ⟨((rot u).find? fun e => (g.E e).nbr = v).getD 0, ?_, ?_⟩
  · unfold neighborEdge
    rw [if_neg (by omega)]
    simp only [rdV, hu'.2, if_true, Option.bind_eq_bind, Option.bind_some]
    rw [h.links.first hu'.2]
    exact neighborEdgeLoop_suffix h.links v _ [] _ rfl (h.links.length_le u)
  · rcases hf : (rot u).find? (fun e => (g.E e).nbr = v) with _ | e
    · left
      refine ⟨rfl, ?_⟩
      intro a ha
      rw [h.arcAt] at ha
      have := List.find?_eq_none.1 hf a ha
      rw [getNbr_eq (h.links.arc _ _ ha).2]
      simpa using this
    · right
      have h1 := List.find?_some hf
      have h2 := List.mem_of_find?_eq_some hf
      simp only [Option.getD_some, h.arcAt]
      refine ⟨h2, ?_⟩
      rw [getNbr_eq (h.links.arc _ _ h2).2]
      simpa using h1

/-- **C12 (degrees).** Degree counts all arcs, in-degree those not outward only, out-degree those
not inward only; an arc that is neither only inward nor only outward is counted by both. -/
theorem C12_degrees {g : Graph} (hr : Reach g) {v : Nat} (hv : IsVertex g v) :
    ∃ L, g.walk false v = some L ∧ g.degree v = some L.length ∧
      g.inDegree v = some (L.countP fun e => g.getDirection e ≠ some 64) ∧
      g.outDegree v = some (L.countP fun e => g.getDirection e ≠ some 32) ∧
      L.length + L.countP (fun e => g.getDirection e ≠ some 64 ∧ g.getDirection e ≠ some 32) =
        L.countP (fun e => g.getDirection e ≠ some 64) +
          L.countP (fun e => g.getDirection e ≠ some 32) := by
  obtain ⟨rot, h⟩ := hr.inv
  have hv' := vSize_iff.1 hv
  have hdir : ∀ e ∈ rot v, g.getDirection e = some ((g.E e).flags &&& DIRMASK) := by
    intro e he
    simp [getDirection, rdE, (h.links.arc _ _ he).2]
  refine ⟨rot v, walk_eq h.links hv'.2 false, ?_, ?_, ?_, ?_⟩
  · rw [degree, if_neg (by omega), degree_loop_eq h.links hv'.2 1, List.countP_eq_length.2]
    intro e _; simpa using dir_ne_one _
  · rw [inDegree, if_neg (by omega), degree_loop_eq h.links hv'.2]
    congr 1
    apply List.countP_congr
    intro e he
    rw [hdir e he]
    simp only [OUTONLY, ne_eq, Option.some.injEq]; exact ⟨fun hh => decide_eq_true (of_decide_eq_true hh), fun hh => decide_eq_true (of_decide_eq_true hh)⟩
  · rw [outDegree, if_neg (by omega), degree_loop_eq h.links hv'.2]
    congr 1
    apply List.countP_congr
    intro e he
    rw [hdir e he]
    simp only [INONLY, ne_eq, Option.some.injEq]; exact ⟨fun hh => decide_eq_true (of_decide_eq_true hh), fun hh => decide_eq_true (of_decide_eq_true hh)⟩
  · generalize rot v = L
    induction L with
    | nil => rfl
    | cons e L ih =>
      simp only [List.length_cons, List.countP_cons]
      by_cases h1 : g.getDirection e = some 64
      · simp [h1] at ih ⊢; omega
      · by_cases h2 : g.getDirection e = some 32
        · simp [h2] at ih ⊢; omega
        · simp [h1, h2] at ih ⊢; omega

example : IsVertex sample 1 ∧ sample.getDirection 4 = some 32 := by unfold IsVertex; decide +kernel

/-! ## C55 -/

theorem and96 (f : Nat) : f &&& 96 = f / 32 % 4 * 32 := by
  have h1 : f / 32 % 4 * 32 = ((f >>> 5) &&& 3) <<< 5 := by
    rw [Nat.shiftLeft_eq, Nat.shiftRight_eq_div_pow,
      show (3 : Nat) = 2 ^ 2 - 1 from rfl, Nat.and_two_pow_sub_one_eq_mod]
  rw [h1]
  apply Nat.eq_of_testBit_eq
  intro i
  simp only [Nat.testBit_and, Nat.testBit_shiftLeft, Nat.testBit_shiftRight]
  by_cases hi : 5 ≤ i
  · obtain ⟨j, rfl⟩ := Nat.exists_eq_add_of_le hi
    have : Nat.testBit 96 (5 + j) = Nat.testBit 3 j := by
      rw [show (96 : Nat) = 3 <<< 5 from rfl, Nat.testBit_shiftLeft]; simp
    simp [this, Bool.and_comm]
  · have : i = 0 ∨ i = 1 ∨ i = 2 ∨ i = 3 ∨ i = 4 := by omega
    have h96 : Nat.testBit 96 i = false := by
      rcases this with rfl | rfl | rfl | rfl | rfl <;> rfl
    simp [h96, hi]

theorem clearDir_and (f : Nat) : clearDir f &&& 96 = 0 := by
  unfold clearDir DIRMASK
  rw [and96, and96]
  omega

theorem or_and (f m : Nat) : (f ||| m) &&& 96 = (f &&& 96) ||| (m &&& 96) :=
  Nat.and_or_distrib_right ..

theorem dir_cases (f : Nat) : f &&& 96 = 0 ∨ f &&& 96 = 32 ∨ f &&& 96 = 64 ∨ f &&& 96 = 96 := by
  rw [and96]; omega

theorem insertEdge_flags {g g' : Graph} (hr : Reach g) {u eu eul v ev evl : Int} {r : Res}
    (hv : g.Valid (.insert u eu eul v ev evl))
    (hs : g.insertEdge u eu eul v ev evl = some (g', r)) (e : Nat) :
    (g'.E e).flags = (g.E e).flags := by
  obtain ⟨rot, h⟩ := hr.inv
  have hcodes := C05_insertEdge_codes (g := g) u eu eul v ev evl
  simp only at hcodes
  by_cases ha : 1 ≤ u ∧ u ≤ (g.N + g.N : Nat) ∧ 1 ≤ v ∧ v ≤ (g.N + g.N : Nat) ∧
      (eu = 0 ∨ 2 ≤ eu ∧ eu < g.inUse) ∧ (ev = 0 ∨ 2 ≤ ev ∧ ev < g.inUse) ∧
      (eul = 0 ∨ eul = 1) ∧ (evl = 0 ∨ evl = 1)
  · by_cases hM : g.M < g.arcCap / 2
    · have hk : ∀ {w : Int}, 1 ≤ w → w ≤ (g.N + g.N : Nat) → IsVertex g w.toNat := by
        intro w h1 h2; unfold IsVertex; omega
      have hnat : ∀ {w a : Int}, (a = 0 ∨ ∃ n : Nat, a = n ∧ g.ArcAt w.toNat n) →
          ∃ n : Nat, a = n ∧ (n = 0 ∨ g.ArcAt w.toNat n) := by
        rintro w a (rfl | ⟨n, rfl, hn⟩)
        · exact ⟨0, rfl, .inl rfl⟩
        · exact ⟨n, rfl, .inr hn⟩
      obtain ⟨nu, rfl, hnu⟩ := hnat hv.1
      obtain ⟨nv, rfl, hnv⟩ := hnat hv.2
      obtain ⟨lu, rfl, hlu⟩ : ∃ n : Nat, eul = n ∧ n ≤ 1 := ⟨eul.toNat, by omega, by omega⟩
      obtain ⟨lv, rfl, hlv⟩ : ∃ n : Nat, evl = n ∧ n ≤ 1 := ⟨evl.toNat, by omega, by omega⟩
      obtain ⟨bu, hbu⟩ := linkOf_le hlu
      obtain ⟨bv, hbv⟩ := linkOf_le hlv
      obtain ⟨g2, x, hg2, hp⟩ := C05_insertEdge_position hr (hk ha.1 ha.2.1)
        (hk ha.2.2.1 ha.2.2.2.1) hlu hlv hM hnu hnv
      rw [Int.toNat_of_nonneg (by omega), Int.toNat_of_nonneg (by omega), hs] at hg2
      cases hg2
      exact hp.sameFlags e
    · rw [hcodes.2 ha (Nat.not_lt.1 hM)] at hs; cases hs; rfl
  · rw [hcodes.1 ha] at hs; cases hs; rfl

/-- In every reachable graph the two arcs of an edge carry opposite directions. -/
theorem C55_twins_opposite {g : Graph} (hr : Reach g) {e : Nat} (hl : Live g e) :
    ∃ d, g.getDirection e = some d ∧ g.getDirection (e ^^^ 1) = some (opposite d) := by
  have key : ∀ e, (g.E (twin e)).flags &&& 96 = opposite ((g.E e).flags &&& 96) := by
    clear hl e
    induction hr with
    | init => intro e; simp [Graph.init, opposite]
    | @step g g' op out hr hv hs ih =>
      obtain ⟨rot, h⟩ := hr.inv
      have same : (∀ e, (g'.E e).flags = (g.E e).flags) →
          ∀ e, (g'.E (twin e)).flags &&& 96 = opposite ((g'.E e).flags &&& 96) := by
        intro hh e; rw [hh, hh]; exact ih e
      cases op with
      | add u ul v vl =>
        obtain ⟨⟨bu, hbu⟩, ⟨bv, hbv⟩⟩ := And.intro (linkOf_le hv.1) (linkOf_le hv.2)
        by_cases hok : (g.vertexOk u && g.vertexOk v) = true
        · by_cases hM : g.M < g.arcCap / 2
          · rw [Bool.and_eq_true] at hok
            have hu := vertexOk_iff.1 hok.1
            have hv' := vertexOk_iff.1 hok.2
            obtain ⟨g'', hg'', _, _, _, _, _, _, _, _, _, _, hfl, -⟩ := putEdge_spec h hM bu bv
              ⟨hu.1, hu.2.1⟩ ⟨hv'.1, hv'.2.1⟩ (eu := 0) (ev := 0) (.inl rfl) (.inl rfl)
            simp only [Graph.step] at hs
            rw [addEdge_spec hok.1 hok.2 hM hbu hbv, hg''] at hs
            cases hs
            exact same hfl
          · simp only [Graph.step, addEdge, hok] at hs
            simp [Nat.not_lt.1 hM] at hs
            obtain ⟨rfl, -⟩ := hs
            exact ih
        · rw [Bool.not_eq_true] at hok
          simp [Graph.step, addEdge, hok] at hs
          obtain ⟨rfl, -⟩ := hs
          exact ih
      | insert u eu eul v ev evl =>
        rcases hi : g.insertEdge u eu eul v ev evl with _ | ⟨g2, r⟩
        · simp [Graph.step, hi] at hs
        · simp only [Graph.step, hi] at hs
          obtain ⟨rfl, -⟩ : g2 = g' ∧ _ := by simpa using hs
          exact same (insertEdge_flags hr hv hi)
      | delete e nl =>
        obtain ⟨b, hb⟩ := linkOf_le hv.1
        obtain ⟨v, hv'⟩ := hv.2
        obtain ⟨g'', hg'', hI, _, _, _, _, _, _, _, _, hE, -⟩ :=
          deleteEdge_spec h (h.arcAt.1 hv') nl b hb
        simp only [Graph.step, hg''] at hs
        obtain ⟨rfl, -⟩ : g'' = g' ∧ _ := by simpa using hs
        intro a
        by_cases ha : a = e ∨ a = twin e
        · have hz : ∀ a, a = e ∨ a = twin e → g''.E a = {} := by
            intro a ha
            apply hI.zero
            intro w hw
            rw [mem_removeRot] at hw
            rcases ha with rfl | rfl
            · exact hw.2.1 rfl
            · exact hw.2.2 rfl
          rw [hz a ha, hz (twin a) (by rcases ha with rfl | rfl; exact .inr rfl; rw [twin_twin]; exact .inl rfl)]
          rfl
        · rw [not_or] at ha
          rw [(hE a ha.1 ha.2).2, (hE (twin a) _ _).2]
          · exact ih a
          · intro hh; exact ha.2 (by rw [← hh, twin_twin])
          · intro hh; exact ha.1 (twin_inj hh)
      | direct e d =>
        obtain ⟨v, hv'⟩ := hv
        obtain ⟨g'', hg'', _, _, _, _, _, _, _, hE, hf, hft⟩ := setDirection_spec h (h.arcAt.1 hv') d
        simp only [Graph.step, hg''] at hs
        obtain ⟨rfl, -⟩ : g'' = g' ∧ _ := by simpa using hs
        have base := ih e
        have main : (g''.E (twin e)).flags &&& 96 = opposite ((g''.E e).flags &&& 96) := by
          rw [hf, hft]
          by_cases h1 : d = INONLY
          · rw [if_pos h1, if_pos h1, or_and, or_and, base]
            rcases dir_cases (g.E e).flags with hh | hh | hh | hh <;> rw [hh] <;> rfl
          · rw [if_neg h1, if_neg h1]
            by_cases h2 : d = OUTONLY
            · rw [if_pos h2, if_pos h2, or_and, or_and, base]
              rcases dir_cases (g.E e).flags with hh | hh | hh | hh <;> rw [hh] <;> rfl
            · rw [if_neg h2, if_neg h2, clearDir_and, clearDir_and]; rfl
        intro a
        by_cases ha : a = e
        · rw [ha]; exact main
        · by_cases hb : a = twin e
          · rw [hb, twin_twin, main]
            rcases dir_cases (g''.E e).flags with hh | hh | hh | hh <;> rw [hh] <;> rfl
          · rw [hE a ha hb, hE (twin a)]
            · exact ih a
            · intro hh; exact hb (by rw [← hh, twin_twin])
            · intro hh; exact ha (twin_inj hh)
    | ensure req a hr he ih =>
      obtain ⟨rot, h⟩ := hr.inv
      intro e; rw [ensure_E h req a he, ensure_E h req a he]; exact ih e
    | reinit hr ih =>
      obtain ⟨rot, h⟩ := hr.inv
      intro e; rw [reinit_E h, reinit_E h]; rfl
    | mark f k hr ih => exact ih
    | flag f hr ih => exact ih
    | copy hrd hrs hcl hN hN0 hc hg ihd ihs =>
      obtain ⟨rotd, hd⟩ := hrd.inv
      obtain ⟨rots, hs⟩ := hrs.inv
      intro e
      rw [copyGraph_E hd hs hcl hN hN0 hc hg, copyGraph_E hd hs hcl hN hN0 hc hg]; exact ihs e
  obtain ⟨rot, h⟩ := hr.inv
  rw [live_iff h] at hl
  obtain ⟨w, hw⟩ := hl
  have har := h.links.arc _ _ hw
  have htr := h.links.arc _ _ (h.twins _ _ hw)
  refine ⟨(g.E e).flags &&& 96, by simp [getDirection, rdE, har.2, DIRMASK], ?_⟩
  show g.getDirection (twin e) = _
  simp only [getDirection, rdE, htr.2, if_true, DIRMASK, ← key e]
  rfl

/-- The full claim of C55: after gp_SetDirection(e, d) the direction of `e` is `d` and the
direction of its twin is the opposite. -/
def SetsDirection (g : Graph) (e d : Nat) : Prop :=
  ∃ g', g.setDirection e d = some g' ∧ g'.getDirection e = some d ∧
    g'.getDirection (e ^^^ 1) = some (opposite d)

/-- **C55 is false of the code**: an arc marked INONLY and then set to OUTONLY ends up with both
bits, which every query treats as undirected. -/
theorem C55_setDirection_false :
    ¬ ∀ g : Graph, Reach g → ∀ e d, Live g e → (d = 0 ∨ d = 32 ∨ d = 64) → SetsDirection g e d := by
  intro hall
  have hl : Live sample 4 := ⟨1, arcAtB_sound (by decide +kernel)⟩
  obtain ⟨g', h1, h2, _⟩ := hall sample sample_reach 4 64 hl (by decide)
  have : (sample.setDirection 4 64).bind (fun g => g.getDirection 4) = some 96 := by decide +kernel
  rw [h1] at this
  simp [h2] at this

/-- **C55, partial**: it holds if the arc was undirected or already had the direction `d`, and
always for clearing (`d = 0`). Missing: changing a direction to its opposite (false of the code). -/
theorem C55_setDirection_partial {g : Graph} (hr : Reach g) {e d : Nat} (hl : Live g e)
    (hd : d = 0 ∨ d = 32 ∨ d = 64)
    (hold : d = 0 ∨ g.getDirection e = some 0 ∨ g.getDirection e = some d) : SetsDirection g e d := by
  obtain ⟨rot, h⟩ := hr.inv
  obtain ⟨d0, hd0, hd1⟩ := C55_twins_opposite hr hl
  rw [live_iff h] at hl
  obtain ⟨w, hw⟩ := hl
  have har := h.links.arc _ _ hw
  have htr := h.links.arc _ _ (h.twins _ _ hw)
  obtain ⟨g', hg', _, hN, _, hC, _, _, _, _, hf, hft⟩ := setDirection_spec h hw d
  have hes : g'.eSize = g.eSize := by simp [eSize, hC]
  refine ⟨g', hg', ?_⟩
  have e0 : (g.E e).flags &&& 96 = d0 := by
    simpa [getDirection, rdE, har.2, DIRMASK] using hd0
  have e1 : (g.E (twin e)).flags &&& 96 = opposite d0 := by
    have : g.getDirection (twin e) = some (opposite d0) := hd1
    simpa [getDirection, rdE, htr.2, DIRMASK] using this
  have r0 : g'.getDirection e = some ((g'.E e).flags &&& 96) := by
    simp [getDirection, rdE, har.2, DIRMASK, hes]
  have r1 : g'.getDirection (e ^^^ 1) = some ((g'.E (twin e)).flags &&& 96) := by
    show g'.getDirection (twin e) = _
    simp [getDirection, rdE, htr.2, DIRMASK, hes]
  rw [r0, r1, hf, hft]
  rw [hd0] at hold
  simp only [Option.some.injEq] at hold
  rcases hd with rfl | rfl | rfl
  · simp [INONLY, OUTONLY, clearDir_and, opposite]
  · simp only [INONLY, if_true, or_and, e0, e1, OUTONLY]
    rcases hold with hh | hh | hh
    · cases hh
    · subst hh; exact ⟨rfl, rfl⟩
    · subst hh; exact ⟨rfl, rfl⟩
  · simp only [INONLY, OUTONLY, if_true]
    rw [if_neg (by decide), if_neg (by decide), or_and, or_and, e0, e1]
    rcases hold with hh | hh | hh
    · cases hh
    · subst hh; exact ⟨rfl, rfl⟩
    · subst hh; exact ⟨rfl, rfl⟩

example : Live sample 6 ∧ sample.getDirection 6 = some 0 :=
  ⟨⟨3, arcAtB_sound (by decide +kernel)⟩, by decide +kernel⟩

theorem testBit_clearDir (f i : Nat) (h5 : i ≠ 5) (h6 : i ≠ 6) :
    (clearDir f).testBit i = f.testBit i := by
  have e1 : clearDir f % 32 = f % 32 ∧ clearDir f / 128 = f / 128 := by
    unfold clearDir DIRMASK; rw [and96]; omega
  rw [Nat.testBit_eq_decide_div_mod_eq, Nat.testBit_eq_decide_div_mod_eq]
  by_cases hi : i < 5
  · have : clearDir f / 2 ^ i % 2 = f / 2 ^ i % 2 := by
      have := e1.1
      rcases (show i = 0 ∨ i = 1 ∨ i = 2 ∨ i = 3 ∨ i = 4 by omega) with rfl | rfl | rfl | rfl | rfl <;>
        simp only [Nat.reducePow] <;> omega
    rw [this]
  · obtain ⟨j, rfl⟩ := Nat.exists_eq_add_of_le (show 7 ≤ i by omega)
    rw [Nat.pow_add, ← Nat.div_div_eq_div_mul, ← Nat.div_div_eq_div_mul,
      show (2 ^ 7 : Nat) = 128 from rfl, e1.2]

theorem testBit_or_dir (f m i : Nat) (hm : m = 32 ∨ m = 64) (h5 : i ≠ 5) (h6 : i ≠ 6) :
    (f ||| m).testBit i = f.testBit i := by
  have : m.testBit i = false := by
    rcases hm with rfl | rfl
    · rw [show (32 : Nat) = 2 ^ 5 from rfl, Nat.testBit_two_pow]; simp; omega
    · rw [show (64 : Nat) = 2 ^ 6 from rfl, Nat.testBit_two_pow]; simp; omega
  rw [Nat.testBit_or, this, Bool.or_false]

/-- **C55 (frame).** gp_SetDirection touches only the direction bits of the two arcs of the edge:
lists, neighbours, all other arcs, all other flag bits and the edge count stay. -/
theorem C55_frame {g : Graph} (hr : Reach g) {e : Nat} (d : Nat) (hl : Live g e) :
    ∃ g', g.setDirection e d = some g' ∧
      (∀ w, IsVertex g w → ∃ L, HasList g w L ∧ HasList g' w L) ∧ g'.M = g.M ∧
      (∀ a, a ≠ e → a ≠ e ^^^ 1 → g'.E a = g.E a) ∧ (∀ a, (g'.E a).nbr = (g.E a).nbr) ∧
      (∀ a i, i ≠ 5 → i ≠ 6 → (g'.E a).flags.testBit i = (g.E a).flags.testBit i) := by
  obtain ⟨rot, h⟩ := hr.inv
  rw [live_iff h] at hl
  obtain ⟨w, hw⟩ := hl
  obtain ⟨g', hg', hI, hN, hM, hC, _, _, hn, hE, hf, hft⟩ := setDirection_spec h hw d
  refine ⟨g', hg', ?_, hM, hE, hn, ?_⟩
  · intro w hw
    rw [vSize_iff] at hw
    exact ⟨rot w, hasList h.links hw.2, hasList hI.links (by simpa [vSize, hN] using hw.2)⟩
  · intro a i h5 h6
    by_cases h1 : a = e
    · subst h1
      rw [hf]
      split
      · exact testBit_or_dir _ _ _ (.inl rfl) h5 h6
      · split
        · exact testBit_or_dir _ _ _ (.inr rfl) h5 h6
        · exact testBit_clearDir _ _ h5 h6
    · by_cases h2 : a = twin e
      · subst h2
        rw [hft]
        split
        · exact testBit_or_dir _ _ _ (.inr rfl) h5 h6
        · split
          · exact testBit_or_dir _ _ _ (.inl rfl) h5 h6
          · exact testBit_clearDir _ _ h5 h6
      · rw [hE a h1 h2]

end Verif.Props
