import Verif.Random.Ends

/-
Property theorems C50 (random numbers) and C51 (random graphs).
-/
namespace Verif.Props
open Verif Verif.Graph Verif.Random

/-- **C50 is false of the code**: 0x7FFF7FF1 is a value rand() may return (RAND_MAX is 2^31-1 with glibc), and folding its
high bits into its low bits overflows `int`. -/
theorem random_number_false : ¬ ∀ r, r < 2147483648 → ∃ x, number r 1 10 = some x ∧ 1 ≤ x ∧ x ≤ 10 := by
  intro h
  obtain ⟨x, h1, -⟩ := h 0x7FFF7FF1 (by omega)
  have : number 0x7FFF7FF1 1 10 = none := by decide +kernel
  rw [this] at h1
  cases h1

/-- **C50 (all but 255 rand() values).** The helper overflows exactly for the values 0x7FFF7F02..0x7FFF8000; for every other
value and all bounds whose range has less than 2^31 members, the result lies between the bounds, or is the lower bound
if the bounds are the wrong way round. Missing: those 255 values. -/
theorem random_number_partial {r : Nat} (hr : r < 2147483648) {lo hi : Int} (hw : hi - lo + 1 < 2147483648) :
    (hi < lo → number r lo hi = some lo) ∧
    (lo ≤ hi → 0x7FFF7F02 ≤ r → r ≤ 0x7FFF8000 → number r lo hi = none) ∧
    (lo ≤ hi → (r < 0x7FFF7F02 ∨ 0x7FFF8000 < r) → ∃ x, number r lo hi = some x ∧ lo ≤ x ∧ x ≤ hi) := by
  refine ⟨fun h => ?_, fun h h1 h2 => ?_, fun h h1 => ?_⟩
  · unfold number; rw [if_pos h]
  · unfold number; rw [if_neg (by omega), number_undefined ⟨h1, h2⟩]; rfl
  · obtain ⟨x, hx⟩ := number_some hr h1 hw
    exact ⟨x, hx, number_bounds h hx⟩

/-- Every member of a range of at most 46341 values is the result for some rand() value. -/
theorem random_number_onto {lo hi t : Int} (h : hi - lo < 46341) (h1 : lo ≤ t) (h2 : t ≤ hi) :
    ∃ r, r < 2147483648 ∧ number r lo hi = some t := by
  obtain ⟨r, a, b⟩ := number_onto h ⟨h1, h2⟩
  exact ⟨r, by omega, b⟩

example : number 1804289383 1 10 = some 7 ∧ number 0xFFFFFF 5 5 = some 5 ∧ number 0x7FFF8001 (-3) 3 = some (-3) := by
  decide +kernel

theorem edgeCount_le {r N arcCap : Nat} {M : Int} (h : edgeCount r N arcCap = some M) :
    M ≤ (N : Int) * ((N : Int) - 1) / 2 := by
  unfold edgeCount at h
  cases h1 : ckInt (7 * (N : Int)) with
  | none => rw [h1] at h; simp at h
  | some a =>
    rw [h1] at h
    simp only [Option.bind_eq_bind, Option.bind_some] at h
    cases h2 : number r (a / 8) ((arcCap / 2 : Nat) : Int) with
    | none => rw [h2] at h; simp at h
    | some b =>
      rw [h2] at h
      simp only [Option.bind_some] at h
      cases h3 : ckInt ((N : Int) * ((N : Int) - 1)) with
      | none => rw [h3] at h; simp at h
      | some p =>
        rw [h3] at h
        simp only [Option.bind_some] at h
        have := ckInt_eq h3
        subst this
        cases h
        split <;> omega

/-- The request that `gp_CreateRandomGraph` draws fits the room there is. -/
theorem edgeCount_fits {r N arcCap : Nat} (hr : r < 2147483648) (hr' : r < 2147450626 ∨ 2147450880 < r) (hN : 1 ≤ N)
    (hN2 : N ≤ 46341) (hroom : N - 1 ≤ arcCap / 2) (hcap : arcCap < 2147483648) :
    ∃ M, edgeCount r N arcCap = some M ∧ M ≤ (arcCap / 2 : Nat) := by
  have hp : (N : Int) * ((N : Int) - 1) ≤ 46341 * 46340 := by
    refine Int.mul_le_mul (by omega) (by omega) (by omega) (by omega)
  have hp0 : (0 : Int) ≤ (N : Int) * ((N : Int) - 1) := Int.mul_nonneg (by omega) (by omega)
  unfold edgeCount
  rw [ckInt_some (by omega)]
  simp only [Option.bind_eq_bind, Option.bind_some]
  obtain ⟨M, hM⟩ := number_some hr hr' (lo := 7 * (N : Int) / 8) (hi := ((arcCap / 2 : Nat) : Int)) (by omega)
  have hb := number_bounds (by omega) hM
  rw [hM]
  simp only [Option.bind_some]
  rw [ckInt_some (by omega)]
  simp only [Option.bind_some]
  refine ⟨_, rfl, ?_⟩
  split <;> omega

/-- **C51.** Whatever the random stream: if gp_CreateRandomGraph, called on an empty graph, returns OK, then the graph is
simple and undirected, every vertex is connected with vertex 1, and the number of edges is between N-1 and N(N-1)/2. -/
theorem random_graph {N arcCap : Nat} (hN : 0 < N) (hc : arcCap % 2 = 0) (rnd : Nat → Nat) (fuel : Nat) {g : Graph}
    (h : createRandomGraph rnd fuel (Graph.init N arcCap) = some (g, some .ok)) :
    Reach g ∧ g.N = N ∧ IsSimple g ∧ Undirected g ∧ (∀ w, 1 ≤ w → w ≤ N → Relation.ReflTransGen (Adjacent g) 1 w) ∧
      N - 1 ≤ g.M ∧ g.M ≤ N * (N - 1) / 2 := by
  have hi := grown_init N arcCap hN hc
  unfold createRandomGraph at h
  rw [show (Graph.init N arcCap).N = N from rfl] at h
  cases ht : tree rnd (N - 1) 0 2 (Graph.init N arcCap) with
  | none => rw [ht] at h; simp at h
  | some p =>
    obtain ⟨g1, r⟩ := p
    rw [ht] at h
    simp only [Option.bind_eq_bind, Option.bind_some] at h
    rcases tree_spec rnd (N - 1) 0 2 (Graph.init N arcCap) hi (by omega) (by omega) g1 r ht with ⟨rfl, hg⟩ | ⟨rfl, -⟩
    · simp only [ne_eq, not_true, if_false] at h
      unfold addExtra at h
      rw [hg.order] at h
      cases hM : edgeCount (rnd (N - 1)) N g1.arcCap with
      | none => rw [hM] at h; simp at h
      | some M =>
        rw [hM] at h
        simp only [Option.bind_eq_bind, Option.bind_some] at h
        have hle := edgeCount_le hM
        rw [show ((N : Int) - 1) = ((N - 1 : Nat) : Int) by omega] at h
        obtain ⟨m', a1, a2, a3, -⟩ := extra_spec rnd M hN hle fuel N (N - 1) g1 hg g (some .ok) h
        refine ⟨a3.reach, a3.order, a3.simple, a3.undirected, a3.joined, by rw [a3.size]; exact a1, ?_⟩
        rw [a3.size]
        have h2 : ((N * (N - 1) : Nat) : Int) = (N : Int) * ((N : Int) - 1) := by
          rw [Int.natCast_mul, Int.natCast_sub hN]; rfl
        rcases a2 with a2 | a2
        · omega
        · rw [a2]
          rcases Nat.lt_or_ge N 2 with hlt | hge
          · obtain rfl : N = 1 := by omega
            simp
          · have : 2 * (N - 1) ≤ N * (N - 1) := Nat.mul_le_mul_right _ hge
            omega
    · simp at h

theorem bind_ok (f : Graph → Option (Graph × Option Res)) {x : Option (Graph × Res)} {g1 : Graph}
    (hx : x = some (g1, .ok)) :
    (do let (g, r) ← x; if r ≠ Res.ok then some (g, some Res.notok) else f g) = f g1 := by
  subst hx
  rfl

theorem create_eq {rnd : Nat → Nat} {fuel : Nat} {g g1 : Graph} (ht : tree rnd (g.N - 1) 0 2 g = some (g1, .ok)) :
    createRandomGraph rnd fuel g = addExtra rnd fuel g1 := by
  unfold createRandomGraph
  exact bind_ok (addExtra rnd fuel) ht

theorem addExtra_eq {rnd : Nat → Nat} {fuel N : Nat} {g1 : Graph} {M : Int} (hN : g1.N = N)
    (hM : edgeCount (rnd (N - 1)) N g1.arcCap = some M) :
    addExtra rnd fuel g1 = extra rnd M fuel N ((N : Int) - 1) g1 := by
  subst hN
  unfold addExtra
  rw [hM]
  rfl

/-- If no number of the stream overflows, the order is at most 46341 (so that N(N-1) fits an `int`) and there is room for a
tree, then gp_CreateRandomGraph runs without undefined behaviour and does not fail: it returns OK or goes on drawing. -/
theorem random_graph_safe {N arcCap : Nat} (hN : 0 < N) (hc : arcCap % 2 = 0) (hN2 : N ≤ 46341) (hroom : N - 1 ≤ arcCap / 2)
    (hcap : arcCap < 2147483648) {rnd : Nat → Nat} (hr : Clean rnd) (fuel : Nat) :
    ∃ g r, createRandomGraph rnd fuel (Graph.init N arcCap) = some (g, r) ∧ (r = some .ok ∨ r = none) := by
  have hN3 : N < 2147483647 := by omega
  have hi := grown_init N arcCap hN hc
  obtain ⟨g1, r1, ht⟩ := tree_defined hr hN3 (N - 1) 0 2 (Graph.init N arcCap) hi (by omega) (by omega)
  rcases tree_spec rnd (N - 1) 0 2 (Graph.init N arcCap) hi (by omega) (by omega) g1 r1 ht with ⟨rfl, hg⟩ | ⟨rfl, hx⟩
  · obtain ⟨M, hM, hMc⟩ := edgeCount_fits (hr (N - 1)).1 (hr (N - 1)).2 hN hN2 hroom hcap
    obtain ⟨g2, r2, he⟩ := extra_defined hr M hN hN3 (edgeCount_le hM) fuel N (N - 1) g1 hg
    refine ⟨g2, r2, ?_, ?_⟩
    · rw [create_eq (g := Graph.init N arcCap) ht, addExtra_eq (M := M) hg.order (by rw [hg.cap]; exact hM)]
      rw [show ((N : Int) - 1) = ((N - 1 : Nat) : Int) by omega]
      exact he
    · obtain ⟨m', a1, a2, a3, a4, a5, a6⟩ := extra_spec rnd M hN (edgeCount_le hM) fuel N (N - 1) g1 hg g2 r2 he
      cases r2 with
      | none => exact .inr rfl
      | some r2 =>
        cases r2 with
        | ok => exact .inl rfl
        | notok =>
          have := a5 rfl
          exact absurd hMc (by omega)
        | nonembeddable => exact absurd rfl a6
  · omega

/-- gp_CreateRandomGraph is never bound to loop forever: however long it has been drawing, further rand() values exist for
which it returns OK. -/
theorem random_graph_can_end {N arcCap : Nat} (hN : 0 < N) (hc : arcCap % 2 = 0) (hN2 : N ≤ 46341) (hroom : N - 1 ≤ arcCap / 2)
    (hcap : arcCap < 2147483648) {rnd : Nat → Nat} (hr : Clean rnd) (fuel : Nat) :
    ∃ rnd' fuel' g, (∀ j, j < N + 2 * fuel → rnd' j = rnd j) ∧ Clean rnd' ∧
      createRandomGraph rnd' fuel' (Graph.init N arcCap) = some (g, some .ok) := by
  obtain ⟨g0, r0, h0, hor⟩ := random_graph_safe hN hc hN2 hroom hcap hr fuel
  rcases hor with rfl | rfl
  · exact ⟨rnd, fuel, g0, fun _ _ => rfl, hr, h0⟩
  · have hN3 : N < 2147483647 := by omega
    have hi := grown_init N arcCap hN hc
    obtain ⟨g1, r1, ht⟩ := tree_defined hr hN3 (N - 1) 0 2 (Graph.init N arcCap) hi (by omega) (by omega)
    rcases tree_spec rnd (N - 1) 0 2 (Graph.init N arcCap) hi (by omega) (by omega) g1 r1 ht with ⟨rfl, hg⟩ | ⟨rfl, hx⟩
    · obtain ⟨M, hM, hMc⟩ := edgeCount_fits (hr (N - 1)).1 (hr (N - 1)).2 hN hN2 hroom hcap
      have hval : ∀ rnd' fuel', (∀ j, j < N → rnd' j = rnd j) →
          createRandomGraph rnd' fuel' (Graph.init N arcCap) = extra rnd' M fuel' N ((N - 1 : Nat) : Int) g1 := by
        intro rnd' fuel' hj
        have ht' : tree rnd' (N - 1) 0 2 (Graph.init N arcCap) = some (g1, .ok) := by
          rw [tree_congr (rnd := rnd) (rnd' := rnd') (N - 1) 0 2 _ (fun j hjj => hj j (by omega)), ht]
        have hM' : edgeCount (rnd' (N - 1)) N g1.arcCap = some M := by rw [hg.cap, hj (N - 1) (by omega), hM]
        rw [create_eq (g := Graph.init N arcCap) ht', addExtra_eq (M := M) hg.order hM']
        rw [show ((N : Int) - 1) = ((N - 1 : Nat) : Int) by omega]
      rw [hval rnd fuel (fun _ _ => rfl)] at h0
      obtain ⟨m', hg', hpre⟩ := extra_prefix rnd M hN (edgeCount_le hM) fuel N (N - 1) g1 hg g0 h0
      obtain ⟨rs, c1, c2⟩ := extra_end M hN hN2 (edgeCount_le hM) hMc M.toNat (N + 2 * fuel) m' g0 hg' (by omega)
      let rnd' : Nat → Nat := fun j => if j < N + 2 * fuel then rnd j else rs j
      have hr1 : ∀ j, j < N + 2 * fuel → rnd' j = rnd j := fun j hj => by simp only [rnd', if_pos hj]
      have hr2 : ∀ j, N + 2 * fuel ≤ j → rnd' j = rs j := fun j hj => by simp only [rnd']; rw [if_neg (by omega)]
      obtain ⟨g', hg2⟩ := c2 rnd' hr2
      refine ⟨rnd', fuel + M.toNat, g', hr1, ?_, ?_⟩
      · intro j
        by_cases hj : j < N + 2 * fuel
        · rw [hr1 j hj]; exact hr j
        · rw [hr2 j (by omega)]; exact c1 j
      · rw [hval rnd' _ (fun j hj => hr1 j (by omega)), hpre rnd' _ hr1]
        exact hg2
    · omega

/-- A stream for the examples. -/
def someStream (i : Nat) : Nat := (i * i * 104729 + 7919 * i + 17) % 1000003

/-- The hypotheses of the theorems about random graphs hold for 5 vertices and a stream; a graph with 6 edges is made. -/
example : Clean someStream ∧ (5 : Nat) ≤ 46341 ∧ 5 - 1 ≤ 16 / 2 ∧
    ((createRandomGraph someStream 40 (Graph.init 5 16)).map fun x => (x.2, x.1.M)) = some (some .ok, 6) := by
  refine ⟨fun i => ?_, by omega, by omega, by decide +kernel⟩
  have : someStream i < 1000003 := Nat.mod_lt _ (by omega)
  omega

end Verif.Props
