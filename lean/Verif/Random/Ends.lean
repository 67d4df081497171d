import Verif.Random.Lemmas

/-
The second loop of `gp_CreateRandomGraph` can always be left: as long as another edge is wanted, two vertices are not
adjacent, and every pair can be picked.
-/
namespace Verif.Random
open Verif Verif.Graph Verif.Props

/-- Fewer than N(N-1)/2 edges leave two vertices that are not adjacent. -/
theorem exists_nonadjacent {g : Graph} (hr : Reach g) (h : 2 * g.M < g.N * (g.N - 1)) :
    ∃ u v, 1 ≤ u ∧ u < v ∧ v ≤ g.N ∧ ¬ Adjacent g u v := by
  obtain ⟨rot, hI⟩ := hr.inv
  apply Classical.byContradiction
  intro hno
  have hall : ∀ u v, 1 ≤ u → u < v → v ≤ g.N → Adjacent g u v := by
    intro u v h1 h2 h3
    apply Classical.byContradiction
    intro hc
    exact hno ⟨u, v, h1, h2, h3, hc⟩
  have hdeg : ∀ u, 1 ≤ u → u ≤ g.N → g.N - 1 ≤ (rot u).length := by
    intro u h1 h2
    have hu : IsVertex g u := ⟨h1, by omega⟩
    have hsub : ((List.range' 1 g.N).erase u) ⊆ (rot u).map fun e => (g.E e).nbr := by
      intro v hv
      have hv' := (List.Nodup.mem_erase_iff (List.nodup_range' )).1 hv
      have hb := List.mem_range'_1.1 hv'.2
      have hadj : Adjacent g u v := by
        rcases Nat.lt_or_ge u v with hlt | hge
        · exact hall u v h1 hlt (by omega)
        · exact adjacent_symm hr ⟨by omega, by omega⟩ (hall v u (by omega) (by have := hv'.1; omega) h2)
      obtain ⟨l, hl, hm⟩ := hadj
      rw [neighbors_eq hI (vSize_iff.1 hu).2] at hl
      cases hl
      exact hm
    have hnd : ((List.range' 1 g.N).erase u).Nodup := List.Nodup.erase u List.nodup_range'
    have := (List.Nodup.subperm hnd hsub).length_le
    rw [List.length_erase_of_mem (List.mem_range'_1.2 ⟨h1, by omega⟩), List.length_range', List.length_map] at this
    exact this
  have hc := hI.count
  rw [allArcs, List.length_flatMap] at hc
  have hsum : ∀ k, k ≤ g.N → k * (g.N - 1) ≤ ((List.range (1 + k)).map fun w => (rot w).length).sum := by
    intro k
    induction k with
    | zero => intro _; simp
    | succ k ih =>
      intro hk
      have := ih (by omega)
      have hd := hdeg (k + 1) (by omega) hk
      rw [show 1 + (k + 1) = (1 + k) + 1 by omega, List.range_succ, List.map_append, List.sum_append]
      simp only [List.map_cons, List.map_nil, List.sum_cons, List.sum_nil]
      rw [Nat.add_mul, show 1 + k = k + 1 by omega] at *
      omega
  have hmono : ∀ k, ((List.range (1 + g.N)).map fun w => (rot w).length).sum ≤
      ((List.range (1 + g.N + k)).map fun w => (rot w).length).sum := by
    intro k
    induction k with
    | zero => exact le_rfl
    | succ k ih =>
      rw [← Nat.add_assoc, List.range_succ, List.map_append, List.sum_append]
      omega
  have h1 := hsum g.N le_rfl
  have h2 := hmono g.N
  have h3 : g.vSize = 1 + g.N + g.N := rfl
  rw [h3] at hc
  omega

theorem int_half {N m : Nat} (hN : 1 ≤ N) {M : Int} (hM : M ≤ (N : Int) * ((N : Int) - 1) / 2) (hm : (m : Int) < M) :
    2 * m < N * (N - 1) := by
  have h2 : ((N * (N - 1) : Nat) : Int) = (N : Int) * ((N : Int) - 1) := by
    rw [Int.natCast_mul, Int.natCast_sub hN]; rfl
  omega

/-- The loop depends only on the values it takes. -/
theorem extra_prefix {N arcCap : Nat} (rnd : Nat → Nat) (M : Int) (hN : 1 ≤ N) (hM : M ≤ (N : Int) * ((N : Int) - 1) / 2) :
    ∀ (fuel i m : Nat) (g : Graph), Grown N arcCap g N m → ∀ g', extra rnd M fuel i m g = some (g', none) →
    ∃ m', Grown N arcCap g' N m' ∧ ∀ rnd' k, (∀ j, j < i + 2 * fuel → rnd' j = rnd j) →
      extra rnd' M (fuel + k) i m g = extra rnd' M k (i + 2 * fuel) m' g'
  | 0, i, m, g, h, g', he => by
    rw [extra] at he
    split at he <;> cases he
    exact ⟨m, h, fun rnd' k _ => by rw [Nat.zero_add]; rfl⟩
  | fuel + 1, i, m, g, h, g', he => by
    rw [extra] at he
    split at he
    · rename_i hm
      have hN2 : 2 ≤ N := by
        rcases Nat.lt_or_ge N 2 with hlt | hge
        · obtain rfl : N = 1 := by omega
          simp at hM
          omega
        · exact hge
      rw [h.order] at he
      cases hu : number (rnd i) 1 ((N : Int) - 1) with
      | none => rw [hu] at he; simp at he
      | some u =>
        rw [hu] at he
        have hb := number_bounds (by omega) hu
        obtain ⟨u', rfl⟩ : ∃ u' : Nat, (u' : Int) = u := ⟨u.toNat, by omega⟩
        simp only [Option.bind_eq_bind, Option.bind_some] at he
        cases hv : number (rnd (i + 1)) ((u' : Int) + 1) (N : Int) with
        | none => rw [hv] at he; simp at he
        | some v =>
          rw [hv] at he
          have hb' := number_bounds (by omega) hv
          obtain ⟨v', rfl⟩ : ∃ v' : Nat, (v' : Int) = v := ⟨v.toNat, by omega⟩
          simp only [Option.bind_some] at he
          have hstep : ∀ (rnd' : Nat → Nat) k, (∀ j, j < i + 2 * (fuel + 1) → rnd' j = rnd j) →
              extra rnd' M (fuel + 1 + k) i m g = (attempt g u' v').bind fun x => match x.2.2 with
                | some r => some (x.1, some r)
                | none => extra rnd' M (fuel + k) (i + 2) (if x.2.1 then (m : Int) + 1 else m) x.1 := by
            intro rnd' k hj
            rw [show fuel + 1 + k = fuel + k + 1 by omega, extra, if_pos hm, h.order, hj i (by omega), hj (i + 1) (by omega), hu]
            simp only [Option.bind_eq_bind, Option.bind_some]
            rw [hv]
            rfl
          rcases attempt_spec h (u := u') (v := v') (by omega) (by omega) (by omega) with ⟨-, ea⟩ | ⟨-, hlt, g1, ea, hg1⟩ | ⟨-, hlt, ea⟩
          · rw [ea] at he
            obtain ⟨m', a1, a2⟩ := extra_prefix rnd M hN hM fuel (i + 2) m g h g' he
            refine ⟨m', a1, fun rnd' k hj => ?_⟩
            rw [hstep rnd' k hj, ea]
            have := a2 rnd' k (fun j hjj => hj j (by omega))
            rw [show i + 2 * (fuel + 1) = i + 2 + 2 * fuel by omega]
            exact this
          · rw [ea] at he
            obtain ⟨m', a1, a2⟩ := extra_prefix rnd M hN hM fuel (i + 2) (m + 1) g1 hg1 g' he
            refine ⟨m', a1, fun rnd' k hj => ?_⟩
            rw [hstep rnd' k hj, ea]
            have := a2 rnd' k (fun j hjj => hj j (by omega))
            rw [show i + 2 * (fuel + 1) = i + 2 + 2 * fuel by omega]
            exact this
          · rw [ea] at he
            cases he
    · cases he

/-- From every state of the loop a stream leads to its end. -/
theorem extra_end {N arcCap : Nat} (M : Int) (hN : 1 ≤ N) (hN2 : N ≤ 46341) (hM : M ≤ (N : Int) * ((N : Int) - 1) / 2)
    (hcap : M ≤ (arcCap / 2 : Nat)) : ∀ (k i m : Nat) (g : Graph), Grown N arcCap g N m → M ≤ m + k →
    ∃ rs : Nat → Nat, Clean rs ∧ ∀ rnd', (∀ j, i ≤ j → rnd' j = rs j) → ∃ g', extra rnd' M k i m g = some (g', some .ok)
  | 0, i, m, g, h, hk => by
    refine ⟨fun _ => 0, fun _ => by simp, fun rnd' _ => ?_⟩
    rw [extra, if_neg (by omega)]
    exact ⟨_, rfl⟩
  | k + 1, i, m, g, h, hk => by
    by_cases hm : (m : Int) < M
    · have hlt : 2 * g.M < g.N * (g.N - 1) := by
        rw [h.size, h.order]; exact int_half hN hM hm
      obtain ⟨u, v, h1, h2, h3, h4⟩ := exists_nonadjacent h.reach hlt
      rw [h.order] at h3
      obtain ⟨r1, c1, e1⟩ := number_onto (lo := 1) (hi := (N : Int) - 1) (t := (u : Int)) (by omega) (by omega)
      obtain ⟨r2, c2, e2⟩ := number_onto (lo := (u : Int) + 1) (hi := (N : Int)) (t := (v : Int)) (by omega) (by omega)
      rcases attempt_spec h h1 h2 h3 with ⟨hc, -⟩ | ⟨-, -, g1, ea, hg1⟩ | ⟨-, hx, -⟩
      · exact absurd hc h4
      · obtain ⟨rs, b1, b2⟩ := extra_end M hN hN2 hM hcap k (i + 2) (m + 1) g1 hg1 (by omega)
        refine ⟨fun j => if j = i then r1 else if j = i + 1 then r2 else rs j, ?_, fun rnd' hj => ?_⟩
        · intro j
          have := b1 j
          simp only
          split
          · omega
          · split <;> omega
        · have t1 : rnd' i = r1 := by rw [hj i (by omega)]; simp
          have t2 : rnd' (i + 1) = r2 := by rw [hj (i + 1) (by omega)]; simp
          obtain ⟨g', hg'⟩ := b2 rnd' (fun j hjj => by
            rw [hj j (by omega)]
            simp only
            rw [if_neg (by omega), if_neg (by omega)])
          refine ⟨g', ?_⟩
          rw [extra, if_pos hm, h.order, t1, t2, e1]
          simp only [Option.bind_eq_bind, Option.bind_some]
          rw [e2]
          simp only [Option.bind_some]
          rw [ea]
          exact hg'
      · omega
    · refine ⟨fun _ => 0, fun _ => by simp, fun rnd' _ => ?_⟩
      rw [extra, if_neg hm]
      exact ⟨_, rfl⟩

/-- The first loop depends only on the values it takes. -/
theorem tree_congr {rnd rnd' : Nat → Nat} : ∀ (k i v : Nat) (g : Graph), (∀ j, j < i + k → rnd' j = rnd j) →
    tree rnd' k i v g = tree rnd k i v g
  | 0, _, _, _, _ => rfl
  | k + 1, i, v, g, h => by
    rw [tree, tree, h i (by omega)]
    have := fun g => tree_congr k (i + 1) (v + 1) g (fun j hj => h j (by omega))
    simp only [this]

end Verif.Random
